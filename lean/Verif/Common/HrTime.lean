import Verif.Lib.Basic

/-!
# High-resolution timers: `neqo-common/src/hrtime.rs`

The calls to the operating system are recorded, for Windows and for macOS.
-/
namespace Neqo.Hr

/-! ## The model -/

/-- Panics: an index out of range, or a count below zero. -/
inductive Panic where
  | index | count
  deriving Repr, DecidableEq

/-- `impl From<Duration> for Period` (hrtime.rs:37-42), for nanoseconds; `MIN` is 1 and `MAX` is 16
(hrtime.rs:23). -/
def period (d : Nat) : Nat :=
  let rounded := if d / 1000000 < 256 then d / 1000000 else 16
  max 1 (min rounded 16)

/-- `struct PeriodSet` (hrtime.rs:46-48): the array has indices 0 to 14. -/
abbrev Counts := Nat → Nat

/-- `PeriodSet::idx` (hrtime.rs:51-54). -/
def idx (p : Nat) : Except Panic Nat := if 1 ≤ p ∧ p - 1 < 15 then .ok (p - 1) else .error .index

/-- Store a number. -/
def Counts.set (c : Counts) (i n : Nat) : Counts := fun j => if j = i then n else c j

/-- `PeriodSet::add` (hrtime.rs:56-60). -/
def Counts.add (c : Counts) (p : Nat) : Except Panic Counts :=
  if p ≠ 16 then do
    let i ← idx p
    return c.set i (c i + 1)
  else .ok c

/-- `PeriodSet::remove` (hrtime.rs:62-68). -/
def Counts.remove (c : Counts) (p : Nat) : Except Panic Counts :=
  if p ≠ 16 then do
    let i ← idx p
    if c i = 0 then .error .count else return c.set i (c i - 1)
  else .ok c

/-- `PeriodSet::min` (hrtime.rs:70-77). -/
def Counts.min (c : Counts) : Option Nat := ((List.range 15).find? fun i => decide (0 < c i)).map (· + 1)

/-- What the operating system is told: `timeBeginPeriod` and `timeEndPeriod` on Windows
(hrtime.rs:302-306, 316-320), the policy of the thread on macOS (hrtime.rs:293-299). -/
inductive Call where
  | begin (p : Nat)
  | end (p : Nat)
  | realtime (p : Nat)
  | standard
  deriving Repr, DecidableEq

/-- `struct Time` (hrtime.rs:270-278). -/
structure Time where
  periods : Counts
  active : Option Nat

/-- `Time::new` (hrtime.rs:280-290). -/
def Time.new : Time := ⟨fun _ => 0, none⟩

/-- `Time::start` (hrtime.rs:293-306). -/
def Time.start (mac : Bool) (t : Time) : List Call :=
  match t.active with
  | some p => [if mac then .realtime p else .begin p]
  | none => if mac then [.standard] else []

/-- `Time::stop` (hrtime.rs:316-327). -/
def Time.stop (mac : Bool) (t : Time) : List Call :=
  match t.active with
  | some p => if mac then [] else [.end p]
  | none => []

/-- `Time::update` (hrtime.rs:329-336). -/
def Time.update (mac : Bool) (t : Time) : Time × List Call :=
  if t.periods.min ≠ t.active then
    ({ t with active := t.periods.min }, t.stop mac ++ Time.start mac { t with active := t.periods.min })
  else (t, [])

/-- `impl Drop for Time` (hrtime.rs:370-381). -/
def Time.drop (mac : Bool) (t : Time) : List Call :=
  t.stop mac ++ (if mac && t.active.isSome then [.standard] else [])

/-- `struct Handle` (hrtime.rs:215-220). -/
structure Handle where
  active : Nat
  hysteresis : List Nat
  index : Nat
  deriving Repr, DecidableEq

/-- `Handle::new` (hrtime.rs:225-232). -/
def Handle.new (p : Nat) : Handle := ⟨p, List.replicate 8 16, 0⟩

/-- The loop in `Handle::update` (hrtime.rs:242-251). -/
def two : List Nat → Nat → Nat → Nat × Nat
  | [], first, second => (first, second)
  | i :: l, first, second =>
    if i < first then two l i first
    else if i < second then two l first i
    else two l first second

/-- `Handle::update` up to the new period (hrtime.rs:237-251). -/
def Handle.next (h : Handle) (d : Nat) : Handle :=
  let hy := h.hysteresis.set h.index (period d)
  { active := (two hy 16 16).2, hysteresis := hy, index := (h.index + 1) % 8 }

/-- The handles that were given out, by number, those that were dropped being gone; the `Time` that they
share, which is there while there is a handle; and what the operating system was told. -/
structure World where
  handles : List (Option Handle)
  time : Option Time
  calls : List Call

def World.new : World := ⟨[], none, []⟩

/-- `Time::get` with `add` (hrtime.rs:338-341, 352-367). -/
def World.get (mac : Bool) (w : World) (d : Nat) : Except Panic World := do
  let t := w.time.getD Time.new
  let c ← t.periods.add (period d)
  let (t, l) := Time.update mac { t with periods := c }
  return { handles := w.handles ++ [some (.new (period d))], time := some t, calls := w.calls ++ l }

/-- `Handle::update` (hrtime.rs:237-260). -/
def World.update (mac : Bool) (w : World) (i d : Nat) : Except Panic World :=
  match w.handles[i]?, w.time with
  | some (some h), some t =>
    if (h.next d).active ≠ h.active then do
      let c ← t.periods.remove h.active
      let c ← c.add (h.next d).active
      let (t, l) := Time.update mac { t with periods := c }
      return { handles := w.handles.set i (some (h.next d)), time := some t, calls := w.calls ++ l }
    else .ok { w with handles := w.handles.set i (some (h.next d)) }
  | _, _ => .ok w

/-- `impl Drop for Handle` with `Time::remove` (hrtime.rs:263-267, 343-346); with the last handle the `Time` goes too. -/
def World.drop (mac : Bool) (w : World) (i : Nat) : Except Panic World :=
  match w.handles[i]?, w.time with
  | some (some h), some t => do
    let c ← t.periods.remove h.active
    let (t, l) := Time.update mac { t with periods := c }
    let hs := w.handles.set i none
    if hs.all Option.isNone then return { handles := hs, time := none, calls := w.calls ++ l ++ t.drop mac }
    else return { handles := hs, time := some t, calls := w.calls ++ l }
  | _, _ => .ok w

/-! ## Histories -/

/-- What a program does.  Handles that are gone cannot be used. -/
inductive Op where
  | get (d : Nat)
  | update (i d : Nat)
  | drop (i : Nat)
  deriving Repr, DecidableEq

def step (mac : Bool) (w : World) : Op → Except Panic World
  | .get d => w.get mac d
  | .update i d => w.update mac i d
  | .drop i => w.drop mac i

def run (mac : Bool) (w : World) : List Op → Except Panic World
  | [] => .ok w
  | o :: l => do
    let w ← step mac w o
    run mac w l

/-! ## Specification -/

/-- What a program asked for with one handle, in nanoseconds: when it got it, and by updates, the latest
first. -/
structure Asked where
  first : Nat
  later : List Nat
  deriving Repr, DecidableEq

/-- What was asked for with the handles, those that were dropped being gone. -/
def observe (l : List (Option Asked)) : Op → List (Option Asked)
  | .get d => l ++ [some ⟨d, []⟩]
  | .update i d =>
    match l[i]? with
    | some (some a) => l.set i (some { a with later := d :: a.later })
    | _ => l
  | .drop i => l.set i none

/-- All of a history. -/
def asked (ops : List Op) : List (Option Asked) := ops.foldl observe []

/-- `d` nanoseconds are no more than `ms` milliseconds, but for a fraction of a millisecond. -/
def Within (d ms : Nat) : Prop := d < (ms + 1) * 1000000

instance (d ms : Nat) : Decidable (Within d ms) := inferInstanceAs (Decidable (_ < _))

/-- A handle wants a resolution of `ms` milliseconds or a finer one: it was asked for at first; or, after
updates, by at least two of the last eight. -/
def Wants (a : Asked) (ms : Nat) : Prop :=
  if a.later = [] then Within a.first ms else 2 ≤ (a.later.take 8).countP fun d => decide (Within d ms)

instance (a : Asked) (ms : Nat) : Decidable (Wants a ms) := by unfold Wants; infer_instance

/-- The resolution in force, in milliseconds. -/
def World.resolution (w : World) : Option Nat := w.time.bind (·.active)

/-- The last policy that was set on macOS. -/
def policy (calls : List Call) : Option Nat :=
  match calls.getLast? with
  | some (.realtime p) => some p
  | _ => none

/-! ## Lemmas -/

theorem period_bounds (d : Nat) : 1 ≤ period d ∧ period d ≤ 16 := by
  unfold period; dsimp only; omega

theorem period_le {d ms : Nat} (h1 : 1 ≤ ms) (h2 : ms < 16) : period d ≤ ms ↔ Within d ms := by
  unfold period Within; dsimp only; split <;> omega

/-- The two smallest numbers of a list. -/
theorem two_spec (l : List Nat) : ∀ (a b : Nat), a ≤ b → ∀ t,
    ((two l a b).2 ≤ t ↔ 2 ≤ l.countP (fun x => decide (x ≤ t)) + (if a ≤ t then 1 else 0) + (if b ≤ t then 1 else 0)) := by
  induction l with
  | nil =>
    intro a b h t
    unfold two
    simp only [List.countP_nil]
    split <;> split <;> omega
  | cons i l ih =>
    intro a b h t
    unfold two
    rw [List.countP_cons]
    split
    · rw [ih i a (by omega) t]
      simp only [decide_eq_true_eq]
      split <;> split <;> split <;> omega
    · split
      · rw [ih a i (by omega) t]
        simp only [decide_eq_true_eq]
        split <;> split <;> split <;> omega
      · rw [ih a b h t]
        simp only [decide_eq_true_eq]
        split <;> split <;> split <;> omega

theorem two_bounds (l : List Nat) (hl : ∀ x ∈ l, 1 ≤ x) : ∀ (a b : Nat), a ≤ b → 1 ≤ a → b ≤ 16 →
    1 ≤ (two l a b).2 ∧ (two l a b).2 ≤ 16 := by
  induction l with
  | nil => intro a b h h1 h2; unfold two; dsimp only; omega
  | cons i l ih =>
    intro a b h h1 h2
    have hi := hl i (List.mem_cons_self ..)
    have hl' : ∀ x ∈ l, 1 ≤ x := fun x hx => hl x (List.mem_cons_of_mem _ hx)
    unfold two
    split
    · exact ih hl' _ _ (by omega) (by omega) (by omega)
    · split
      · exact ih hl' _ _ (by omega) (by omega) (by omega)
      · exact ih hl' _ _ h h1 h2

/-- What is known of a handle. -/
structure HInv (h : Handle) (a : Asked) : Prop where
  length : h.hysteresis.length = 8
  index : h.index < 8
  range : 1 ≤ h.active ∧ h.active ≤ 16
  ring : (h.hysteresis.drop h.index ++ h.hysteresis.take h.index).reverse = (a.later.map period ++ List.replicate 8 16).take 8
  active : h.active = if a.later = [] then period a.first else (two h.hysteresis 16 16).2

theorem new_inv (d : Nat) : HInv (.new (period d)) ⟨d, []⟩ :=
  ⟨rfl, Nat.zero_lt_succ 7, period_bounds d, rfl, rfl⟩

theorem ring_mem {h : Handle} {a : Asked} (i : HInv h a) : ∀ x ∈ h.hysteresis, 1 ≤ x := by
  intro x hx
  have : x ∈ (h.hysteresis.drop h.index ++ h.hysteresis.take h.index).reverse := by
    rw [List.mem_reverse, List.mem_append]
    rw [← List.take_append_drop h.index h.hysteresis, List.mem_append] at hx
    exact hx.symm
  rw [i.ring] at this
  have := List.mem_of_mem_take this
  rcases List.mem_append.mp this with h | h
  · obtain ⟨d, _, rfl⟩ := List.mem_map.mp h
    exact (period_bounds d).1
  · have := (List.mem_replicate.mp h).2
    omega

theorem next_inv {h : Handle} {a : Asked} (i : HInv h a) (d : Nat) :
    HInv (h.next d) { a with later := d :: a.later } := by
  obtain ⟨A, x, B, hs, hA⟩ : ∃ A x B, h.hysteresis = A ++ x :: B ∧ A.length = h.index := by
    have hlt : h.index < h.hysteresis.length := by rw [i.length]; exact i.index
    refine ⟨h.hysteresis.take h.index, h.hysteresis[h.index], h.hysteresis.drop (h.index + 1), ?_, ?_⟩
    · rw [List.getElem_cons_drop, List.take_append_drop]
    · rw [List.length_take]; omega
  have hl : A.length + B.length = 7 := by
    have := i.length
    rw [hs] at this
    simp only [List.length_append, List.length_cons] at this
    omega
  have hset : h.hysteresis.set h.index (period d) = A ++ period d :: B := by
    rw [hs, ← hA, List.set_append_right _ _ (Nat.le_refl _), Nat.sub_self]
    rfl
  have hold : A.reverse ++ (B.reverse ++ [x]) = (a.later.map period ++ List.replicate 8 16).take 8 := by
    rw [← i.ring, hs, ← hA, List.drop_left, List.take_left]
    simp
  have hnew : (period d) :: (A.reverse ++ B.reverse) = (((d :: a.later).map period) ++ List.replicate 8 16).take 8 := by
    rw [List.map_cons, List.cons_append, List.take_succ_cons]
    congr 1
    have : (a.later.map period ++ List.replicate 8 16).take 7 = ((a.later.map period ++ List.replicate 8 16).take 8).take 7 := by
      rw [List.take_take]; rfl
    rw [this, ← hold, ← List.append_assoc, List.take_append_of_le_length (by simp; omega), List.take_of_length_le (by simp; omega)]
  have hring : ((h.next d).hysteresis.drop (h.next d).index ++ (h.next d).hysteresis.take (h.next d).index).reverse =
      (((d :: a.later).map period) ++ List.replicate 8 16).take 8 := by
    rw [← hnew]
    unfold Handle.next
    dsimp only
    rw [hset, ← hA]
    by_cases hB : A.length = 7
    · have : B = [] := List.eq_nil_of_length_eq_zero (by omega)
      subst this
      rw [hB]
      simp
    · rw [Nat.mod_eq_of_lt (by omega)]
      have e : A ++ period d :: B = (A ++ [period d]) ++ B := by simp
      have e2 : A.length + 1 = (A ++ [period d]).length := by simp
      rw [e, e2, List.drop_left, List.take_left]
      simp
  have hlen : (h.next d).hysteresis.length = 8 := by
    unfold Handle.next; dsimp only; rw [List.length_set]; exact i.length
  have hidx : (h.next d).index < 8 := by
    unfold Handle.next; dsimp only; exact Nat.mod_lt _ (by decide)
  refine ⟨hlen, hidx, ?_, hring, ?_⟩
  · unfold Handle.next
    dsimp only
    refine two_bounds _ ?_ _ _ (Nat.le_refl _) (by decide) (by decide)
    intro y hy
    rw [hset] at hy
    have hm := ring_mem i
    rw [hs] at hm
    rcases List.mem_append.mp hy with hy | hy
    · exact hm y (List.mem_append_left _ hy)
    · rcases List.mem_cons.mp hy with rfl | hy
      · exact (period_bounds d).1
      · exact hm y (List.mem_append_right _ (List.mem_cons_of_mem _ hy))
  · rw [if_neg (fun h => by cases h)]
    rfl

theorem countP_replicate_zero (n t : Nat) (ht : t < 16) : (List.replicate n 16).countP (fun x => decide (x ≤ t)) = 0 := by
  rw [List.countP_eq_zero]
  intro x hx
  have := (List.mem_replicate.mp hx).2
  simp only [decide_eq_true_eq]
  omega

/-- A handle is as fine as it should be. -/
theorem wants_iff {h : Handle} {a : Asked} (i : HInv h a) {ms : Nat} (h1 : 1 ≤ ms) (h2 : ms < 16) :
    h.active ≤ ms ↔ Wants a ms := by
  unfold Wants
  rw [i.active]
  split
  · exact period_le h1 h2
  · rw [two_spec _ _ _ (Nat.le_refl _), if_neg (by omega)]
    have e : h.hysteresis.countP (fun x => decide (x ≤ ms)) = ((a.later.map period ++ List.replicate 8 16).take 8).countP (fun x => decide (x ≤ ms)) := by
      rw [← i.ring, List.countP_reverse, List.countP_append, Nat.add_comm, ← List.countP_append, List.take_append_drop]
    have e2 : ((a.later.map period ++ List.replicate 8 16).take 8).countP (fun x => decide (x ≤ ms)) =
        (a.later.take 8).countP (fun d => decide (Within d ms)) := by
      rw [List.take_append, List.countP_append, ← List.map_take, List.countP_map]
      rw [List.take_replicate, countP_replicate_zero _ _ h2, Nat.add_zero]
      congr 1
      funext d
      simp only [Function.comp, decide_eq_decide]
      exact period_le h1 h2
    rw [e, e2]
    omega

theorem min_iff (c : Counts) (ms : Nat) (h : ms < 16) :
    (∃ p, c.min = some p ∧ p ≤ ms) ↔ ∃ j, j < ms ∧ 0 < c j := by
  unfold Counts.min
  constructor
  · rintro ⟨p, hp, hle⟩
    rw [Option.map_eq_some_iff] at hp
    obtain ⟨i, hi, rfl⟩ := hp
    exact ⟨i, by omega, by simpa using List.find?_some hi⟩
  · rintro ⟨j, hj, hc⟩
    cases hf : (List.range 15).find? (fun i => decide (0 < c i)) with
    | none =>
      rw [List.find?_eq_none] at hf
      exact absurd (decide_eq_true hc) (hf j (List.mem_range.mpr (by omega)))
    | some i =>
      refine ⟨i + 1, rfl, ?_⟩
      have := (List.find?_range_eq_some.mp hf).2.2 j
      by_cases hij : j < i
      · have := this hij
        simp only [Bool.not_eq_true', decide_eq_false_iff_not] at this
        omega
      · omega

theorem min_range {c : Counts} {p : Nat} (h : c.min = some p) : 1 ≤ p ∧ p ≤ 15 := by
  unfold Counts.min at h
  rw [Option.map_eq_some_iff] at h
  obtain ⟨i, hi, rfl⟩ := h
  have := List.mem_of_find?_eq_some hi
  rw [List.mem_range] at this
  omega

/-- Whether a handle is there and has a period. -/
def has (p : Nat) (o : Option Handle) : Bool := o.any fun h => decide (h.active = p)

/-- The counts are those of the handles. -/
def Agree (c : Counts) (hs : List (Option Handle)) : Prop := ∀ j, j < 15 → c j = hs.countP (has (j + 1))

theorem add_ok {c : Counts} {p : Nat} (h : 1 ≤ p ∧ p ≤ 16) :
    ∃ c', c.add p = .ok c' ∧ ∀ j, j < 15 → c' j = c j + if p = j + 1 then 1 else 0 := by
  unfold Counts.add
  by_cases h16 : p = 16
  · rw [if_neg (by omega)]
    refine ⟨c, rfl, fun j hj => ?_⟩
    rw [if_neg (by omega)]
    rfl
  · rw [if_pos h16]
    unfold idx
    rw [if_pos (by omega)]
    refine ⟨_, rfl, fun j hj => ?_⟩
    unfold Counts.set
    split
    · rename_i e; subst e; rw [if_pos (by omega)]
    · rw [if_neg (by omega)]; rfl

theorem remove_ok {c : Counts} {p : Nat} (h : 1 ≤ p ∧ p ≤ 16) (hc : ∀ j, j < 15 → p = j + 1 → 0 < c j) :
    ∃ c', c.remove p = .ok c' ∧ ∀ j, j < 15 → c' j + (if p = j + 1 then 1 else 0) = c j := by
  unfold Counts.remove
  by_cases h16 : p = 16
  · rw [if_neg (by omega)]
    refine ⟨c, rfl, fun j hj => ?_⟩
    rw [if_neg (by omega)]
    rfl
  · rw [if_pos h16]
    have hp := hc (p - 1) (by omega) (by omega)
    unfold idx
    rw [if_pos (by omega)]
    refine ⟨c.set (p - 1) (c (p - 1) - 1), ?_, fun j hj => ?_⟩
    · show (if c (p - 1) = 0 then _ else _) = _
      rw [if_neg (by omega)]
      rfl
    · unfold Counts.set
      split
      · rename_i e; subst e; rw [if_pos (by omega)]; omega
      · rw [if_neg (by omega)]; rfl

theorem count_set {hs : List (Option Handle)} {i : Nat} {h : Handle} (hi : hs[i]? = some (some h)) (o : Option Handle) (p : Nat) :
    (hs.set i o).countP (has p) + (if h.active = p then 1 else 0) = hs.countP (has p) + (if has p o then 1 else 0) := by
  induction hs generalizing i with
  | nil => simp at hi
  | cons x hs ih =>
    cases i with
    | zero =>
      simp only [List.getElem?_cons_zero, Option.some.injEq] at hi
      subst hi
      rw [List.set_cons_zero, List.countP_cons, List.countP_cons]
      have : has p (some h) = decide (h.active = p) := rfl
      rw [this]
      simp only [decide_eq_true_eq]
      omega
    | succ i =>
      rw [List.getElem?_cons_succ] at hi
      rw [List.set_cons_succ, List.countP_cons, List.countP_cons]
      have := ih hi
      omega

theorem count_pos {hs : List (Option Handle)} {i : Nat} {h : Handle} (hi : hs[i]? = some (some h)) :
    0 < hs.countP (has h.active) := by
  rw [List.countP_pos_iff]
  exact ⟨some h, List.mem_of_getElem? hi, by simp [has]⟩

/-- A handle and what was asked for with it. -/
inductive Same : Option (Option Handle) → Option (Option Asked) → Prop where
  | none : Same none none
  | gone : Same (some none) (some none)
  | live {h a} : HInv h a → Same (some (some h)) (some (some a))

theorem Same.nones {x : Option (Option Handle)} {y : Option (Option Asked)} (h : Same x y) :
    (y = Option.none → x = Option.none) ∧ (x = Option.none → y = Option.none) := by
  cases h <;> exact ⟨fun h => (by first | rfl | cases h), fun h => (by first | rfl | cases h)⟩

theorem Same.set {hs : List (Option Handle)} {l : List (Option Asked)} (h : ∀ j : Nat, Same hs[j]? l[j]?) (i : Nat) {o : Option Handle}
    {a : Option Asked} (ho : Same (some o) (some a)) (j : Nat) : Same (hs.set i o)[j]? (l.set i a)[j]? := by
  rw [List.getElem?_set, List.getElem?_set]
  have hl : i < hs.length ↔ i < l.length := by
    have := (h i).nones
    constructor
    · intro e
      by_cases hc : i < l.length
      · exact hc
      · have := this.1 (List.getElem?_eq_none (by omega))
        rw [List.getElem?_eq_none_iff] at this
        omega
    · intro e
      by_cases hc : i < hs.length
      · exact hc
      · have := this.2 (List.getElem?_eq_none (by omega))
        rw [List.getElem?_eq_none_iff] at this
        omega
  by_cases e : i = j
  · rw [if_pos e, if_pos e]
    by_cases hi : i < hs.length
    · rw [if_pos hi, if_pos (hl.mp hi)]; exact ho
    · rw [if_neg hi, if_neg (fun h => hi (hl.mpr h))]; exact .none
  · rw [if_neg e, if_neg e]; exact h j

/-- What was said to Windows: each period begun was ended, but for the one in force. -/
def Paired (calls : List Call) (o : Option Nat) : Prop :=
  ∃ ps : List Nat, calls = ps.flatMap (fun p => [.begin p, .end p]) ++ o.toList.map .begin

/-- What the operating system knows. -/
def Told (mac : Bool) (calls : List Call) (o : Option Nat) : Prop :=
  if mac then policy calls = o else Paired calls o

theorem told_update {mac : Bool} {t : Time} {calls : List Call} (h : Told mac calls t.active) :
    (Time.update mac t).1 = { t with active := t.periods.min } ∧ Told mac (calls ++ (Time.update mac t).2) t.periods.min := by
  unfold Time.update
  split
  · rename_i hne
    refine ⟨rfl, ?_⟩
    cases mac with
    | false =>
      obtain ⟨ps, hp⟩ := h
      cases ha : t.active with
      | none =>
        refine ⟨ps, ?_⟩
        rw [hp, ha]
        unfold Time.stop Time.start
        rw [ha]
        cases t.periods.min <;> simp
      | some p =>
        refine ⟨ps ++ [p], ?_⟩
        rw [hp, ha]
        unfold Time.stop Time.start
        rw [ha]
        cases t.periods.min <;> simp
    | true =>
      show policy _ = _
      unfold Time.stop Time.start policy
      cases t.active <;> cases t.periods.min <;> simp
  · rename_i he
    have he : t.periods.min = t.active := by
      by_cases h : t.periods.min = t.active
      · exact h
      · exact absurd h he
    rw [he]
    refine ⟨rfl, ?_⟩
    dsimp only
    rw [List.append_nil]
    exact h

/-- What always holds. -/
structure Inv (mac : Bool) (w : World) (l : List (Option Asked)) : Prop where
  same : ∀ i : Nat, Same w.handles[i]? l[i]?
  gone : w.time = none → ∀ o ∈ w.handles, o = none
  agree : ∀ t, w.time = some t → Agree t.periods w.handles ∧ t.active = t.periods.min
  told : Told mac w.calls w.resolution

theorem inv_new (mac : Bool) : Inv mac .new [] := by
  refine ⟨fun i => ?_, (fun _ o h => by cases h), (fun t h => by cases h), ?_⟩
  · show Same ([] : List (Option Handle))[i]? ([] : List (Option Asked))[i]?
    rw [List.getElem?_nil, List.getElem?_nil]; exact .none
  · cases mac
    · exact ⟨[], rfl⟩
    · rfl

theorem get_inv {mac : Bool} {w : World} {l : List (Option Asked)} (i : Inv mac w l) (d : Nat) :
    ∃ w', w.get mac d = .ok w' ∧ Inv mac w' (l ++ [some ⟨d, []⟩]) := by
  obtain ⟨c, hc, hcc⟩ := add_ok (c := (w.time.getD Time.new).periods) (period_bounds d)
  have hold : Agree (w.time.getD Time.new).periods w.handles := by
    cases ht : w.time with
    | some t => exact (i.agree t ht).1
    | none =>
      intro j _
      have := i.gone ht
      symm
      rw [Option.getD_none]
      show _ = 0
      rw [List.countP_eq_zero]
      intro o ho
      rw [this o ho]
      exact fun h => by cases h
  have htold : Told mac w.calls (Time.mk c (w.time.getD Time.new).active).active := by
    have := i.told
    unfold World.resolution at this
    cases ht : w.time <;> rw [ht] at this <;> exact this
  obtain ⟨h1, h2⟩ := told_update (mac := mac) htold
  unfold World.get
  dsimp only
  rw [hc]
  refine ⟨_, rfl, ?_, ?_, ?_, ?_⟩
  · intro j
    have hl : w.handles.length = l.length := by
      have a := i.same w.handles.length
      have b := i.same l.length
      rw [List.getElem?_eq_none (Nat.le_refl _)] at a
      rw [List.getElem?_eq_none (l := l) (Nat.le_refl _)] at b
      have a' : l[w.handles.length]? = none := by generalize l[w.handles.length]? = z at a; cases a; rfl
      have b' : w.handles[l.length]? = none := by generalize w.handles[l.length]? = z at b; cases b; rfl
      rw [List.getElem?_eq_none_iff] at a' b'
      omega
    dsimp only
    rw [List.getElem?_append, List.getElem?_append, hl]
    split
    · exact i.same j
    · cases hj : j - l.length with
      | zero => exact .live (new_inv d)
      | succ n => exact .none
  · intro h; cases h
  · intro t ht
    cases ht
    rw [h1]
    refine ⟨fun j hj => ?_, rfl⟩
    dsimp only
    rw [hcc j hj, hold j hj, List.countP_append]
    congr 1
    show _ = ([some (Handle.new (period d))] : List (Option Handle)).countP _
    rw [List.countP_singleton]
    have : has (j + 1) (some (Handle.new (period d))) = decide (period d = j + 1) := rfl
    rw [this]
    simp only [decide_eq_true_eq]
  · unfold World.resolution
    dsimp only
    rw [h1]
    exact h2

theorem update_inv {mac : Bool} {w : World} {l : List (Option Asked)} (v : Inv mac w l) (i d : Nat) :
    ∃ w', w.update mac i d = .ok w' ∧ Inv mac w' (observe l (.update i d)) := by
  have hs := v.same i
  unfold World.update
  cases hh : w.handles[i]? with
  | none =>
    rw [hh] at hs
    generalize hl : l[i]? = z at hs
    cases hs
    rw [show observe l (.update i d) = l by unfold observe; dsimp only; rw [hl]]
    exact ⟨w, rfl, v⟩
  | some o =>
    cases o with
    | none =>
      rw [hh] at hs
      generalize hl : l[i]? = z at hs
      cases hs
      rw [show observe l (.update i d) = l by unfold observe; dsimp only; rw [hl]]
      exact ⟨w, rfl, v⟩
    | some h =>
      rw [hh] at hs
      generalize hl : l[i]? = z at hs
      cases hs with
      | @live _ a hi =>
      have hn := next_inv hi d
      rw [show observe l (.update i d) = l.set i (some { a with later := d :: a.later }) by unfold observe; dsimp only; rw [hl]]
      cases ht : w.time with
      | none =>
        have := v.gone ht _ (List.mem_of_getElem? hh)
        cases this
      | some t =>
        obtain ⟨hag, hmin⟩ := v.agree t ht
        dsimp only
        split
        · obtain ⟨c, hc, hcc⟩ := remove_ok (c := t.periods) hi.range (fun j hj e => by
            rw [hag j hj, ← e]; exact count_pos hh)
          obtain ⟨c', hc', hcc'⟩ := add_ok (c := c) hn.range
          have htold : Told mac w.calls (Time.mk c' t.active).active := by
            have := v.told
            unfold World.resolution at this
            rw [ht] at this
            exact this
          obtain ⟨h1, h2⟩ := told_update (mac := mac) htold
          rw [hc]
          refine ⟨{ handles := w.handles.set i (some (h.next d)), time := some (Time.update mac ⟨c', t.active⟩).1, calls := w.calls ++ (Time.update mac ⟨c', t.active⟩).2 }, ?_, ?_, ?_, ?_, ?_⟩
          · show (do let c ← c.add (h.next d).active; _) = _
            rw [hc']
            rfl
          · exact Same.set v.same i (.live hn)
          · intro h; cases h
          · intro t' ht'
            cases ht'
            rw [h1]
            refine ⟨fun j hj => ?_, rfl⟩
            dsimp only
            have e1 := hcc j hj
            have e2 := hcc' j hj
            have e3 := hag j hj
            have e4 := count_set hh (some (h.next d)) (j + 1)
            have e5 : has (j + 1) (some (h.next d)) = decide ((h.next d).active = j + 1) := rfl
            rw [e5] at e4
            simp only [decide_eq_true_eq] at e4
            omega
          · unfold World.resolution
            dsimp only
            rw [h1]
            exact h2
        · rename_i heq
          have heq : (h.next d).active = h.active := by
            by_cases e : (h.next d).active = h.active
            · exact e
            · exact absurd e heq
          refine ⟨_, rfl, ?_, ?_, ?_, ?_⟩
          · exact Same.set v.same i (.live hn)
          · intro h0
            cases h0
          · intro t' ht'
            cases ht'
            refine ⟨fun j hj => ?_, hmin⟩
            rw [hag j hj]
            have e4 := count_set hh (some (h.next d)) (j + 1)
            have e5 : has (j + 1) (some (h.next d)) = decide (h.active = j + 1) := by
              show decide ((h.next d).active = j + 1) = _
              rw [heq]
            rw [e5] at e4
            simp only [decide_eq_true_eq] at e4
            dsimp only
            omega
          · have := v.told
            unfold World.resolution at this ⊢
            rw [ht] at this
            exact this

theorem drop_inv {mac : Bool} {w : World} {l : List (Option Asked)} (v : Inv mac w l) (i : Nat) :
    ∃ w', w.drop mac i = .ok w' ∧ Inv mac w' (observe l (.drop i)) := by
  have hs := v.same i
  unfold World.drop
  rw [show observe l (.drop i) = l.set i none from rfl]
  cases hh : w.handles[i]? with
  | none =>
    rw [hh] at hs
    generalize hl : l[i]? = z at hs
    cases hs
    dsimp only
    rw [List.set_eq_of_length_le (by rwa [List.getElem?_eq_none_iff] at hl)]
    exact ⟨w, rfl, v⟩
  | some o =>
    cases o with
    | none =>
      rw [hh] at hs
      generalize hl : l[i]? = z at hs
      cases hs
      dsimp only
      refine ⟨w, rfl, ⟨fun j => ?_, v.gone, v.agree, v.told⟩⟩
      have := Same.set v.same i .gone j
      have e : w.handles.set i none = w.handles := by
        apply List.ext_getElem?
        intro j
        rw [List.getElem?_set]
        split
        · rename_i e; subst e
          split
          · exact hh.symm
          · rename_i hlt
            rw [List.getElem?_eq_none (by omega)] at hh
            cases hh
        · rfl
      rw [e] at this
      exact this
    | some h =>
      rw [hh] at hs
      generalize hl : l[i]? = z at hs
      cases hs with
      | @live _ a hi =>
      cases ht : w.time with
      | none =>
        have := v.gone ht _ (List.mem_of_getElem? hh)
        cases this
      | some t =>
        obtain ⟨hag, hmin⟩ := v.agree t ht
        obtain ⟨c, hc, hcc⟩ := remove_ok (c := t.periods) hi.range (fun j hj e => by
            rw [hag j hj, ← e]; exact count_pos hh)
        have htold : Told mac w.calls (Time.mk c t.active).active := by
          have := v.told
          unfold World.resolution at this
          rw [ht] at this
          exact this
        obtain ⟨h1, h2⟩ := told_update (mac := mac) htold
        have hag' : Agree c (w.handles.set i none) := by
          intro j hj
          have e1 := hcc j hj
          have e3 := hag j hj
          have e4 := count_set hh none (j + 1)
          have e5 : has (j + 1) none = false := rfl
          rw [e5] at e4
          simp only [Bool.false_eq_true, if_false] at e4
          omega
        dsimp only
        rw [hc]
        by_cases hall : (w.handles.set i none).all Option.isNone = true
        · have hnone : ∀ o ∈ w.handles.set i none, o = none := by
            intro o ho
            have := List.all_eq_true.mp hall o ho
            cases o with
            | none => rfl
            | some _ => cases this
          have hcm : Counts.min c = none := by
            cases hm : Counts.min c with
            | none => rfl
            | some p =>
              have hr := min_range hm
              obtain ⟨j, hj, hp⟩ := (min_iff c 15 (by decide)).mp ⟨p, hm, hr.2⟩
              rw [hag' j hj] at hp
              rw [List.countP_pos_iff] at hp
              obtain ⟨o, ho, hb⟩ := hp
              rw [hnone o ho] at hb
              cases hb
          refine ⟨{ handles := w.handles.set i none, time := none, calls := w.calls ++ (Time.update mac ⟨c, t.active⟩).2 ++ (Time.update mac ⟨c, t.active⟩).1.drop mac }, ?_, ?_, ?_, ?_, ?_⟩
          · show (if (w.handles.set i none).all Option.isNone = true then _ else _) = _
            rw [if_pos hall]
            rfl
          · exact Same.set v.same i .gone
          · intro _; exact hnone
          · intro t' ht'; cases ht'
          · rw [h1]
            have : Time.drop mac { periods := c, active := Counts.min c } = [] := by
              unfold Time.drop Time.stop
              rw [hcm]
              simp
            rw [show ({ (Time.mk c t.active) with active := Counts.min (Time.mk c t.active).periods } : Time) = ⟨c, Counts.min c⟩ from rfl, this]
            show Told mac (_ ++ []) none
            rw [List.append_nil]
            rw [← hcm]
            exact h2
        · refine ⟨{ handles := w.handles.set i none, time := some (Time.update mac ⟨c, t.active⟩).1, calls := w.calls ++ (Time.update mac ⟨c, t.active⟩).2 }, ?_, ?_, ?_, ?_, ?_⟩
          · show (if (w.handles.set i none).all Option.isNone = true then _ else _) = _
            rw [if_neg hall]
            rfl
          · exact Same.set v.same i .gone
          · intro h; cases h
          · intro t' ht'
            cases ht'
            rw [h1]
            exact ⟨hag', rfl⟩
          · unfold World.resolution
            dsimp only
            rw [h1]
            exact h2

theorem run_inv {mac : Bool} (ops : List Op) : ∀ (w : World) (l : List (Option Asked)), Inv mac w l →
    ∃ w', run mac w ops = .ok w' ∧ Inv mac w' (ops.foldl observe l) := by
  induction ops with
  | nil => intro w l i; exact ⟨w, rfl, i⟩
  | cons o ops ih =>
    intro w l i
    have : ∃ w', step mac w o = .ok w' ∧ Inv mac w' (observe l o) := by
      cases o with
      | get d => exact get_inv i d
      | update j d => exact update_inv i j d
      | drop j => exact drop_inv i j
    obtain ⟨w', h, hi⟩ := this
    obtain ⟨w2, h2, hi2⟩ := ih w' _ hi
    refine ⟨w2, ?_, hi2⟩
    unfold run
    rw [h]
    exact h2

/-! ## Properties -/

/-- In every history nothing panics, and the resolution in force is always the finest that a handle wants
which is still there, in whole milliseconds below 16. -/
theorem C121_finest (mac : Bool) (ops : List Op) :
    ∃ w, run mac .new ops = .ok w ∧ (∀ p, w.resolution = some p → 1 ≤ p ∧ p ≤ 15) ∧
      ∀ ms, 1 ≤ ms → ms < 16 → ((∃ p, w.resolution = some p ∧ p ≤ ms) ↔ ∃ a, some a ∈ asked ops ∧ Wants a ms) := by
  obtain ⟨w, h, i⟩ := run_inv (mac := mac) ops .new [] (inv_new mac)
  refine ⟨w, h, ?_, ?_⟩
  · intro p hp
    unfold World.resolution at hp
    cases ht : w.time with
    | none => rw [ht] at hp; cases hp
    | some t =>
      rw [ht] at hp
      have hp : t.active = some p := hp
      rw [(i.agree t ht).2] at hp
      exact min_range hp
  · intro ms h1 h2
    have e : (∃ p, w.resolution = some p ∧ p ≤ ms) ↔ ∃ h, some h ∈ w.handles ∧ h.active ≤ ms := by
      unfold World.resolution
      cases ht : w.time with
      | none =>
        constructor
        · rintro ⟨p, hp, _⟩; cases hp
        · rintro ⟨h, hm, _⟩; cases i.gone ht _ hm
      | some t =>
        obtain ⟨hag, hmin⟩ := i.agree t ht
        show (∃ p, t.active = some p ∧ p ≤ ms) ↔ _
        rw [hmin, min_iff _ _ h2]
        constructor
        · rintro ⟨j, hj, hc⟩
          rw [hag j (by omega), List.countP_pos_iff] at hc
          obtain ⟨o, ho, hb⟩ := hc
          cases o with
          | none => cases hb
          | some x =>
            have hb : decide (x.active = j + 1) = true := hb
            rw [decide_eq_true_eq] at hb
            exact ⟨x, ho, by omega⟩
        · rintro ⟨x, hx, hle⟩
          obtain ⟨n, hn⟩ := List.getElem?_of_mem hx
          have hs := i.same n
          rw [hn] at hs
          generalize (List.foldl observe [] ops)[n]? = z at hs
          cases hs with
          | live hi =>
            have hr := hi.range
            refine ⟨x.active - 1, by omega, ?_⟩
            rw [hag _ (by omega), Nat.sub_add_cancel hr.1]
            exact count_pos hn
    rw [e]
    constructor
    · rintro ⟨x, hx, hle⟩
      obtain ⟨n, hn⟩ := List.getElem?_of_mem hx
      have hs := i.same n
      rw [hn] at hs
      generalize hz : (List.foldl observe [] ops)[n]? = z at hs
      cases hs with
      | @live _ a hi => exact ⟨a, List.mem_of_getElem? hz, (wants_iff hi h1 h2).mp hle⟩
    · rintro ⟨a, ha, hw⟩
      obtain ⟨n, hn⟩ := List.getElem?_of_mem (show some a ∈ List.foldl observe [] ops from ha)
      have hs := i.same n
      rw [hn] at hs
      generalize hz : w.handles[n]? = z at hs
      cases hs with
      | @live x _ hi => exact ⟨x, List.mem_of_getElem? hz, (wants_iff hi h1 h2).mpr hw⟩

/-- On Windows, each period that is begun is ended before the next, and none is left over when there is none
in force. -/
theorem C121_windows {ops : List Op} {w : World} (h : run false .new ops = .ok w) :
    ∃ ps : List Nat, w.calls = ps.flatMap (fun p => [.begin p, .end p]) ++ w.resolution.toList.map .begin := by
  obtain ⟨w', h', i⟩ := run_inv (mac := false) ops .new [] (inv_new false)
  cases h.symm.trans h'
  exact i.told

/-- On macOS, the policy set last is that of the resolution in force, and the standard one if there is
none. -/
theorem C121_mac {ops : List Op} {w : World} (h : run true .new ops = .ok w) : policy w.calls = w.resolution := by
  obtain ⟨w', h', i⟩ := run_inv (mac := true) ops .new [] (inv_new true)
  cases h.symm.trans h'
  exact i.told

/-- When all handles are dropped, no resolution is in force. -/
theorem C121_restored {mac : Bool} {ops : List Op} {w : World} (h : run mac .new ops = .ok w)
    (hd : ∀ o ∈ asked ops, o = none) : w.resolution = none := by
  obtain ⟨w', h', hr, hf⟩ := C121_finest mac ops
  cases h.symm.trans h'
  cases hw : w.resolution with
  | none => rfl
  | some p =>
    have := hr p hw
    obtain ⟨a, ha, _⟩ := (hf 15 (by decide) (by decide)).mp ⟨p, hw, this.2⟩
    cases hd _ ha

/-- An update is not what dropping the handle and getting another one would be: a handle for a millisecond
that is updated with a millisecond is no longer one for high resolution, until it is updated once more. -/
theorem C121_update_forgets : ∃ a b c d, run false .new [.get 1000000] = .ok a ∧ a.resolution = some 1 ∧
    run false .new [.get 1000000, .update 0 1000000] = .ok b ∧ b.resolution = none ∧
    run false .new [.get 1000000, .update 0 1000000, .update 0 1000000] = .ok c ∧ c.resolution = some 1 ∧
    run false .new [.get 1000000, .drop 0, .get 1000000] = .ok d ∧ d.resolution = some 1 := by
  refine ⟨_, _, _, _, rfl, rfl, rfl, rfl, rfl, rfl, rfl, rfl⟩

/-! ## Examples -/

/-- Two handles; the finer one is in force, then the other one. -/
example : asked [.get 5000000, .get 2900000, .drop 1] = [some ⟨5000000, []⟩, none] := by decide

example : ∃ w, run false .new [.get 5000000, .get 2900000, .drop 1, .drop 0] = .ok w ∧ w.resolution = none ∧
    w.calls = [.begin 5, .end 5, .begin 2, .end 2, .begin 5, .end 5] := ⟨_, rfl, rfl, rfl⟩

example : ∃ w, run true .new [.get 5000000, .get 2900000, .drop 1, .drop 0, .get 7000000] = .ok w ∧ w.resolution = some 7 ∧
    w.calls = [.realtime 5, .realtime 2, .realtime 5, .standard, .realtime 7] := ⟨_, rfl, rfl, rfl⟩

/-- One fine update of eight does not count, two do. -/
example : ∃ v w, run false .new [.get 9000000, .update 0 9000000, .update 0 9000000, .update 0 1000000] = .ok v ∧
    v.resolution = some 9 ∧
    run false .new [.get 9000000, .update 0 9000000, .update 0 9000000, .update 0 1000000, .update 0 3000000] = .ok w ∧
    w.resolution = some 3 := ⟨_, _, rfl, rfl, rfl, rfl⟩

example : ¬ Wants ⟨9000000, [1000000, 9000000, 9000000]⟩ 8 ∧ Wants ⟨9000000, [3000000, 1000000, 9000000, 9000000]⟩ 3 := by
  decide

/-- Fine ones are forgotten after eight updates. -/
example : ¬ Wants ⟨9000000, List.replicate 8 9000000 ++ [1000000, 1000000]⟩ 8 := by decide

end Neqo.Hr
