import Verif.Flow.Spec
import Mathlib.Tactic.ByContra

/-! # C12, C13 (counter level), C14, C47: flow-control counters -/
namespace Neqo.Flow

/-! ## C13 (one counter): a sender never uses more than the largest limit received -/

private structure SInv (s : SFc) : Prop where
  used : s.used ≤ s.limit
  blk : ∀ b, s.blockedAt = some b → b ≤ s.limit

private theorem step_consume (s : SFc) (n : Nat) :
    ∃ u, s.step (.consume n) = ({ s with used := u }, none) ∧ (u ≤ s.limit ∨ u = s.used) := by
  unfold SFc.step SFc.consume
  simp only
  by_cases hc : s.used + min n s.available ≤ s.limit
  · rw [if_pos hc]; exact ⟨_, rfl, .inl hc⟩
  · rw [if_neg hc]; exact ⟨s.used, rfl, .inr rfl⟩

private theorem sstep_inv {s : SFc} (h : SInv s) (op : SOp) : SInv (s.step op).1 := by
  obtain ⟨h1, h2⟩ := h
  cases op with
  | update l =>
    simp only [SFc.step, SFc.update]
    split
    · exact ⟨by simp only; omega, fun b hb => by have := h2 b hb; simp only; omega⟩
    · exact ⟨h1, h2⟩
  | consume n =>
    obtain ⟨u, hu, hu'⟩ := step_consume s n
    rw [hu]; exact ⟨by simp only; omega, h2⟩
  | blocked =>
    simp only [SFc.step, SFc.blocked]
    split
    · split
      · exact ⟨h1, h2⟩
      · exact ⟨h1, fun b hb => by simp only [Option.some.injEq] at hb; simp only; omega⟩
    · exact ⟨h1, fun b hb => by simp only [Option.some.injEq] at hb; simp only; omega⟩
  | write fits =>
    simp only [SFc.step, SFc.write]
    split
    · split
      · exact ⟨h1, h2⟩
      · exact ⟨h1, h2⟩
    · exact ⟨h1, h2⟩
  | lost l =>
    simp only [SFc.step, SFc.frameLost]
    split
    · split
      · exact ⟨h1, h2⟩
      · exact ⟨h1, h2⟩
    · exact ⟨h1, h2⟩

private theorem srun_inv {s : SFc} (h : SInv s) (ops : List SOp) : SInv (s.run ops) := by
  induction ops generalizing s with
  | nil => exact h
  | cons op ops ih => exact ih (sstep_inv h op)

private theorem sinit (n : Nat) : SInv { limit := n } := ⟨by simp, by simp⟩

private theorem step_limit (s : SFc) (op : SOp) :
    (s.step op).1.limit = (match op with | .update l => max s.limit l | _ => s.limit) := by
  cases op with
  | update l => simp only [SFc.step, SFc.update]; split <;> simp only <;> omega
  | consume n =>
    obtain ⟨u, hu, _⟩ := step_consume s n
    rw [hu]
  | blocked => simp only [SFc.step, SFc.blocked]; repeat' split
               all_goals rfl
  | write fits => simp only [SFc.step, SFc.write]; repeat' split
                  all_goals rfl
  | lost l => simp only [SFc.step, SFc.frameLost]; repeat' split
              all_goals rfl

/-- The limit in force is the largest one received, whatever the order of arrival. -/
theorem C13_limit_is_largest (initial : Nat) (ops : List SOp) :
    (SFc.run { limit := initial } ops).limit = largestLimit initial ops := by
  suffices ∀ s : SFc, (s.run ops).limit = largestLimit s.limit ops from this _
  induction ops with
  | nil => intro s; rfl
  | cons op ops ih =>
    intro s
    simp only [SFc.run]
    rw [ih, step_limit]
    cases op <;> rfl

/-- Credit used never exceeds the largest limit received. -/
theorem C13_used_within_largest_limit (initial : Nat) (ops : List SOp) :
    (SFc.run { limit := initial } ops).used ≤ largestLimit initial ops := by
  rw [← C13_limit_is_largest]
  exact (srun_inv (sinit initial) ops).used

/-- What is reported available is exactly what remains of the largest limit, and using
exactly that much never trips the debug assertion. -/
theorem C13_available_exact (initial : Nat) (ops : List SOp) :
    let s := SFc.run { limit := initial } ops
    s.used + s.available = largestLimit initial ops ∧
    ∀ n, (∃ s', s.consume n = .ok s') ↔ n ≤ s.available := by
  have hi := srun_inv (sinit initial) ops
  have h1 := hi.used
  simp only
  rw [← C13_limit_is_largest]
  refine ⟨by unfold SFc.available; omega, fun n => ?_⟩
  unfold SFc.consume SFc.available
  split
  · simp; omega
  · simp; omega

example : (SFc.run { limit := 5 } [.consume 3, .update 4, .consume 9, .update 8, .consume 1]) =
    { limit := 8, used := 6 } := by decide

/-! ## C14: blocked frames -/

private theorem needed_iff {s : SFc} (h : SInv s) {l : Nat} :
    s.blockedNeeded = some l ↔ s.blockedAt = some l ∧ s.blockedFrame = true ∧ l = s.limit := by
  unfold SFc.blockedNeeded
  constructor
  · intro hn
    rw [Option.filter_eq_some_iff] at hn
    simp only [Bool.and_eq_true, decide_eq_true_eq] at hn
    have := h.blk l hn.1
    exact ⟨hn.1, hn.2.1, by omega⟩
  · rintro ⟨h1, h2, h3⟩
    rw [Option.filter_eq_some_iff]
    simp only [Bool.and_eq_true, decide_eq_true_eq]
    exact ⟨h1, h2, by omega⟩

private theorem run_append (s : SFc) (a b : List SOp) : s.run (a ++ b) = (s.run a).run b := by
  induction a generalizing s with
  | nil => rfl
  | cons op a ih => exact ih _

/-- A blocked frame that is sent carries the limit in force at that moment, and blocking was
reported earlier while that same limit was in force. -/
theorem C14_blocked_frame_is_current (initial : Nat) (pre : List SOp) (fits : Bool) (l : Nat)
    (hw : ((SFc.run { limit := initial } pre).step (.write fits)).2 = some l) :
    l = largestLimit initial pre ∧
    ∃ a b, pre = a ++ .blocked :: b ∧ largestLimit initial a = l := by
  have hi := srun_inv (sinit initial) pre
  have hn : (SFc.run { limit := initial } pre).blockedNeeded = some l := by
    simp only [SFc.step, SFc.write] at hw
    split at hw
    · rename_i l' hl'
      split at hw
      · simp only [Option.some.injEq] at hw; rw [hl', hw]
      · cases hw
    · cases hw
  obtain ⟨h1, hbf, h3⟩ := (needed_iff hi).mp hn
  refine ⟨by rw [h3, C13_limit_is_largest], ?_⟩
  -- `blockedAt` was set by a `blocked` call at that limit
  suffices ∀ s : SFc, (s.run pre).blockedAt = some l → s.blockedAt = some l ∨
      ∃ a b, pre = a ++ .blocked :: b ∧ (s.run a).limit = l by
    rcases this _ h1 with h | ⟨a, b, h, h'⟩
    · cases h
    · exact ⟨a, b, h, by rw [← h', C13_limit_is_largest]⟩
  clear hi hn h1 h3 hw hbf
  induction pre with
  | nil => intro s h; exact .inl h
  | cons op ops ih =>
    intro s h
    rcases ih (s.step op).1 h with h1 | ⟨a, b, h1, h2⟩
    · have hcase : s.blockedAt = some l ∨ (op = .blocked ∧ s.limit = l) := by
        cases op with
        | update l' => simp only [SFc.step, SFc.update] at h1; split at h1 <;> exact .inl h1
        | consume n =>
          obtain ⟨u, hu, _⟩ := step_consume _ n
          rw [hu] at h1; exact .inl h1
        | blocked =>
          simp only [SFc.step, SFc.blocked] at h1
          split at h1
          · split at h1
            · exact .inl h1
            · simp only [Option.some.injEq] at h1; exact .inr ⟨rfl, h1⟩
          · simp only [Option.some.injEq] at h1; exact .inr ⟨rfl, h1⟩
        | write f => simp only [SFc.step, SFc.write] at h1
                     repeat' split at h1
                     all_goals exact .inl h1
        | lost l' => simp only [SFc.step, SFc.frameLost] at h1
                     repeat' split at h1
                     all_goals first | exact .inl h1 | (left; simpa using h1)
      rcases hcase with h2 | ⟨rfl, h2⟩
      · exact .inl h2
      · exact .inr ⟨[], ops, rfl, h2⟩
    · exact .inr ⟨op :: a, b, by rw [h1]; rfl, h2⟩

/-- At most once per limit, unless lost: if a blocked frame for `l` is sent and later another
one is sent, the later one is for a larger limit, or the frame for `l` was reported lost in
between. -/
theorem C14_once_per_limit (initial : Nat) (pre mid : List SOp) (f1 f2 : Bool) (l l' : Nat)
    (hw : ((SFc.run { limit := initial } pre).step (.write f1)).2 = some l)
    (hw' : ((SFc.run { limit := initial } (pre ++ .write f1 :: mid)).step (.write f2)).2 = some l') :
    l < l' ∨ (l' = l ∧ .lost l ∈ mid) := by
  have hi := srun_inv (sinit initial) pre
  rw [run_append] at hw'
  generalize SFc.run { limit := initial } pre = s at *
  have hn : s.blockedNeeded = some l ∧ (s.step (.write f1)).1 = s.blockedSent := by
    simp only [SFc.step, SFc.write] at hw ⊢
    split at hw
    · rename_i l' hl'
      split at hw
      · simp only [Option.some.injEq] at hw
        simp only [*]; simp
      · cases hw
    · cases hw
  obtain ⟨h1, _, h3⟩ := (needed_iff hi).mp hn.1
  simp only [SFc.run] at hw'
  have hi2 := sstep_inv hi (.write f1)
  rw [hn.2] at hw' hi2
  -- invariant along `mid`
  have key : ∀ (ops : List SOp) (t : SFc), SInv t →
      ((∃ b, t.blockedAt = some b ∧ l < b) ∨ t.blockedAt = some l) →
      (t.blockedAt = some l → t.blockedFrame = true → False) →
      ∀ f, ((t.run ops).step (.write f)).2 = some l' → l < l' ∨ (l' = l ∧ .lost l ∈ ops) := by
    intro ops
    induction ops with
    | nil =>
      intro t ht hb hnot f hw
      simp only [SFc.run, SFc.step, SFc.write] at hw
      split at hw
      · rename_i l2 hl2
        split at hw
        · simp only [Option.some.injEq] at hw
          subst hw
          obtain ⟨a, b, _⟩ := (needed_iff ht).mp hl2
          rcases hb with ⟨x, hx, hx'⟩ | hx
          · rw [a] at hx; cases hx; exact .inl hx'
          · exact absurd b (fun hb' => hnot hx hb')
        · cases hw
      · cases hw
    | cons op ops ih =>
      intro t ht hb hnot f hw
      simp only [SFc.run] at hw
      have ht' := sstep_inv ht op
      by_cases hlost : op = .lost l
      · -- after a loss anything not smaller is allowed
        subst hlost
        have key2 : ∀ (ops : List SOp) (t : SFc), SInv t →
            (∃ b, t.blockedAt = some b ∧ l ≤ b) →
            ((t.run ops).step (.write f)).2 = some l' → l ≤ l' := by
          intro ops
          induction ops with
          | nil =>
            rintro t ht ⟨b, hb, hb'⟩ hw
            simp only [SFc.run, SFc.step, SFc.write] at hw
            split at hw
            · rename_i l2 hl2
              split at hw
              · simp only [Option.some.injEq] at hw
                subst hw
                obtain ⟨a, _, _⟩ := (needed_iff ht).mp hl2
                rw [a] at hb; cases hb; exact hb'
              · cases hw
            · cases hw
          | cons op ops ih =>
            rintro t ht ⟨b, hb, hb'⟩ hw
            refine ih _ (sstep_inv ht op) ?_ hw
            have hbl := ht.blk b hb
            cases op with
            | update l2 => simp only [SFc.step, SFc.update]; split <;> exact ⟨b, hb, hb'⟩
            | consume n =>
              obtain ⟨u, hu, _⟩ := step_consume _ n
              rw [hu]; exact ⟨b, hb, hb'⟩
            | blocked =>
              simp only [SFc.step, SFc.blocked, hb]
              split
              · exact ⟨b, hb, hb'⟩
              · exact ⟨_, rfl, by omega⟩
            | write f => simp only [SFc.step, SFc.write]; repeat' split
                         all_goals exact ⟨b, hb, hb'⟩
            | lost l2 => simp only [SFc.step, SFc.frameLost, hb]
                         split <;> first | exact ⟨b, hb, hb'⟩ | exact ⟨b, rfl, hb'⟩
        have hle : l ≤ l' := by
          refine key2 ops _ ht' ?_ hw
          rcases hb with ⟨x, hx, hx'⟩ | hx
          · refine ⟨x, ?_, by omega⟩
            simp only [SFc.step, SFc.frameLost, hx]; split <;> simp [hx]
          · refine ⟨l, ?_, by omega⟩
            simp only [SFc.step, SFc.frameLost, hx]; simp
        by_cases heq : l' = l
        · exact .inr ⟨heq, by simp⟩
        · left; omega
      · have hrec := ih (t.step op).1 ht' ?_ ?_ f hw
        · rcases hrec with h | ⟨h, h'⟩
          · exact .inl h
          · exact .inr ⟨h, List.mem_cons_of_mem _ h'⟩
        · -- blockedAt only grows
          cases op with
          | update l2 => simp only [SFc.step, SFc.update]; split <;> exact hb
          | consume n =>
            obtain ⟨u, hu, _⟩ := step_consume _ n
            rw [hu]; exact hb
          | blocked =>
            simp only [SFc.step, SFc.blocked]
            split
            · rename_i x hx
              split
              · exact hb
              · rename_i hlt
                left
                refine ⟨t.limit, rfl, ?_⟩
                rcases hb with ⟨y, hy, hy'⟩ | hy
                · rw [hx] at hy; cases hy; omega
                · rw [hx] at hy; cases hy; omega
            · rename_i hx
              rcases hb with ⟨y, hy, _⟩ | hy
              · rw [hx] at hy; cases hy
              · rw [hx] at hy; cases hy
          | write f => simp only [SFc.step, SFc.write]; repeat' split
                       all_goals exact hb
          | lost l2 => simp only [SFc.step, SFc.frameLost]; repeat' split
                       all_goals first | exact hb | (simp only [*] at hb ⊢; exact hb)
        · -- the frame is not pending at `l`
          cases op with
          | update l2 =>
            simp only [SFc.step, SFc.update]
            split
            · intro _ h; cases h
            · exact hnot
          | consume n =>
            obtain ⟨u, hu, _⟩ := step_consume _ n
            rw [hu]; exact hnot
          | blocked =>
            simp only [SFc.step, SFc.blocked]
            split
            · rename_i x hx
              split
              · exact hnot
              · rename_i hlt
                intro h _
                simp only [Option.some.injEq] at h
                rcases hb with ⟨y, hy, hy'⟩ | hy
                · rw [hx] at hy; cases hy; omega
                · rw [hx] at hy; cases hy; omega
            · rename_i hx
              rcases hb with ⟨y, hy, _⟩ | hy
              · rw [hx] at hy; cases hy
              · rw [hx] at hy; cases hy
          | write f =>
            simp only [SFc.step, SFc.write]
            split
            · split
              · intro _ h; cases h
              · exact hnot
            · exact hnot
          | lost l2 =>
            simp only [SFc.step, SFc.frameLost]
            split
            · rename_i x hx
              split
              · rename_i hxl
                intro h _
                simp only at h
                rw [hx] at h
                cases h
                exact hlost (by rw [hxl])
              · exact hnot
            · exact hnot
  exact key mid s.blockedSent hi2 (.inr h1) (fun _ h => by cases h) f2 hw'

/-- Blocking is reported: after `blocked`, unless a frame for the current limit has already been
asked for, the next chance to write sends a frame with the current limit. -/
theorem C14_blocked_is_reported (initial : Nat) (pre : List SOp)
    (hfresh : (SFc.run { limit := initial } pre).blockedAt ≠ some (largestLimit initial pre)) :
    ((SFc.run { limit := initial } (pre ++ [.blocked])).step (.write true)).2 =
      some (largestLimit initial pre) := by
  have hi := srun_inv (sinit initial) pre
  have hl := C13_limit_is_largest initial pre
  rw [run_append]
  generalize SFc.run { limit := initial } pre = s at *
  rw [← hl] at hfresh ⊢
  have hb : s.blocked = { s with blockedAt := some s.limit, blockedFrame := true } := by
    unfold SFc.blocked
    split
    · rename_i b hb
      have := hi.blk b hb
      rw [if_neg]
      intro hle
      exact hfresh (by rw [hb]; congr 1; omega)
    · rfl
  simp only [SFc.run, SFc.step]
  rw [hb]
  simp [SFc.write, SFc.blockedNeeded, Option.filter]

/-- A lost blocked frame is sent again if the limit has not been raised since. -/
theorem C14_lost_frame_resent (initial : Nat) (pre mid : List SOp) (f : Bool)
    (hw : ((SFc.run { limit := initial } pre).step (.write f)).2 = some (largestLimit initial pre))
    (hmid : ∀ op ∈ mid, ∀ l, op ≠ .update l) :
    ((SFc.run { limit := initial } (pre ++ .write f :: (mid ++ [.lost (largestLimit initial pre)]))).step
      (.write true)).2 = some (largestLimit initial pre) := by
  have hi := srun_inv (sinit initial) pre
  have hl := C13_limit_is_largest initial pre
  rw [run_append]
  generalize SFc.run { limit := initial } pre = s at *
  rw [← hl] at hw ⊢
  simp only [SFc.run]
  rw [run_append]
  have hat : (s.step (.write f)).1.blockedAt = some s.limit ∧ (s.step (.write f)).1.limit = s.limit := by
    simp only [SFc.step, SFc.write] at hw ⊢
    split at hw
    · rename_i l' hl'
      split at hw
      · rename_i hf
        simp only [Option.some.injEq] at hw
        subst hw
        have := (needed_iff hi).mp hl'
        rw [if_pos hf]
        exact ⟨this.1, rfl⟩
      · cases hw
    · cases hw
  have hmidrun : ∀ (ops : List SOp) (t : SFc), (∀ op ∈ ops, ∀ l, op ≠ .update l) →
      t.blockedAt = some s.limit ∧ t.limit = s.limit →
      (t.run ops).blockedAt = some s.limit ∧ (t.run ops).limit = s.limit := by
    intro ops
    induction ops with
    | nil => intro t _ h; exact h
    | cons op ops ih =>
      intro t hno h
      refine ih _ (fun o ho => hno o (List.mem_cons_of_mem _ ho)) ?_
      cases op with
      | update l => exact absurd rfl (hno _ (by simp) l)
      | consume n =>
        obtain ⟨u, hu, _⟩ := step_consume _ n
        rw [hu]; exact h
      | blocked => simp only [SFc.step, SFc.blocked, h.1, h.2]; simp [h]
      | write f => simp only [SFc.step, SFc.write]; repeat' split
                   all_goals exact h
      | lost l => simp only [SFc.step, SFc.frameLost]; repeat' split
                  all_goals first | exact h | (simp only [*] at h ⊢; exact h)
  obtain ⟨h1, h2⟩ := hmidrun mid _ hmid hat
  generalize (s.step (.write f)).1.run mid = t at *
  simp only [SFc.run, SFc.step, SFc.frameLost, h1, if_true]
  simp [SFc.write, SFc.blockedNeeded, Option.filter, h2]

/-- Blocked at 5, sent, blocked again (nothing), lost, sent again, raised, blocked at 9. -/
example :
    let s0 : SFc := { limit := 5 }
    ((s0.run [.blocked]).step (.write true)).2 = some 5 ∧
    ((s0.run [.blocked, .write true, .blocked]).step (.write true)).2 = none ∧
    ((s0.run [.blocked, .write true, .blocked, .lost 5]).step (.write true)).2 = some 5 ∧
    ((s0.run [.blocked, .write true, .update 9, .lost 5]).step (.write true)).2 = none ∧
    ((s0.run [.blocked, .write true, .update 9, .blocked]).step (.write true)).2 = some 9 := by
  decide

/-! ## C12: advertised limits -/

private structure RInv (s : RFc) : Prop where
  ret : s.retired ≤ s.consumed
  con : s.consumed ≤ s.maxAllowed
  win : s.maxAllowed ≤ s.retired + s.maxActive
  cap : s.maxAllowed ≤ maxVarint

private theorem autoTune_spec {s : RFc} (h : RInv s) (now rtt mw : Nat) :
    ∃ m, s.autoTune now rtt mw = .ok { s with maxActive := m } ∧ s.maxActive ≤ m := by
  have h1 := h.ret; have h2 := h.con; have h3 := h.win
  unfold RFc.autoTune
  split
  · exact ⟨s.maxActive, rfl, Nat.le_refl _⟩
  · split
    · exact ⟨s.maxActive, rfl, Nat.le_refl _⟩
    · simp only
      rw [if_neg (by omega)]
      split
      · exact ⟨s.maxActive, rfl, Nat.le_refl _⟩
      · split
        · exact ⟨s.maxActive, rfl, Nat.le_refl _⟩
        · exact ⟨_, rfl, by omega⟩

private theorem step_received {mw : Nat} {s s1 : RFc} {n : Nat} {o : Option Nat}
    (hs : s.step mw (.received n) = .ok (s1, o)) :
    o = none ∧ (s1 = s ∨ (s1 = { s with consumed := n } ∧ s.consumed < n ∧ n ≤ s.maxAllowed)) := by
  simp only [RFc.step, RFc.setConsumed] at hs
  by_cases h1 : n ≤ s.consumed
  · rw [if_pos h1] at hs; cases hs; exact ⟨rfl, .inl rfl⟩
  · rw [if_neg h1] at hs
    by_cases h2 : n > s.maxAllowed
    · rw [if_pos h2] at hs; cases hs
    · rw [if_neg h2] at hs; cases hs; exact ⟨rfl, .inr ⟨rfl, by omega, by omega⟩⟩

private theorem step_retired {mw : Nat} {s s1 : RFc} {n : Nat} {o : Option Nat}
    (hs : s.step mw (.retired n) = .ok (s1, o)) :
    o = none ∧ s.retired + n ≤ s.consumed ∧ s.retired + n ≤ s.maxAllowed ∧
    ∃ b, s1 = { s with retired := s.retired + n, framePending := b } ∧
      (b = false → s.framePending = false ∧
        s.maxActive - s.maxActive / 4 ≤ s.maxAllowed - (s.retired + n)) := by
  simp only [RFc.step, RFc.addRetired, RFc.shouldSendUpdate, windowUpdateFraction] at hs
  by_cases h1 : s.retired + n ≤ s.consumed
  · rw [if_pos h1] at hs
    by_cases h2 : s.maxAllowed < s.retired + n
    · rw [if_pos h2] at hs; cases hs
    · rw [if_neg h2] at hs
      by_cases h3 : s.maxAllowed - (s.retired + n) < s.maxActive - s.maxActive / 4
      · simp only [h3, decide_true, if_true] at hs
        cases hs; exact ⟨rfl, h1, by omega, true, rfl, by simp⟩
      · simp only [h3, decide_false] at hs
        cases hs; exact ⟨rfl, h1, by omega, s.framePending, rfl, fun h => ⟨h, by omega⟩⟩
  · rw [if_neg h1] at hs; cases hs

private theorem rstep_inv {mw : Nat} {s s1 : RFc} {op : ROp} {o : Option Nat} (h : RInv s)
    (hset : ∀ w, op = .setWindow w → s.maxActive ≤ w) (hs : s.step mw op = .ok (s1, o)) :
    RInv s1 ∧ s.maxAllowed ≤ s1.maxAllowed ∧ ∀ l, o = some l → l = s1.maxAllowed := by
  obtain ⟨h1, h2, h3, h4⟩ := h
  cases op with
  | received n =>
    obtain ⟨ho, h | ⟨h, h5, h6⟩⟩ := step_received hs
    · subst h ho; exact ⟨⟨h1, h2, h3, h4⟩, Nat.le_refl _, by simp⟩
    · subst h ho; exact ⟨⟨by simp only; omega, h6, h3, h4⟩, Nat.le_refl _, by simp⟩
  | retired n =>
    obtain ⟨ho, h5, h6, b, hb, _⟩ := step_retired hs
    subst hb ho
    exact ⟨⟨h5, h2, by simp only; omega, h4⟩, Nat.le_refl _, by simp⟩
  | peerBlocked =>
    simp only [RFc.step, RFc.sendFlowcUpdate] at hs
    cases hs
    split
    · exact ⟨⟨h1, h2, h3, h4⟩, Nat.le_refl _, by simp⟩
    · exact ⟨⟨h1, h2, h3, h4⟩, Nat.le_refl _, by simp⟩
  | setWindow w =>
    simp only [RFc.step, RFc.setMaxActive] at hs
    cases hs
    have := hset w rfl
    exact ⟨⟨h1, h2, by simp only; omega, h4⟩, Nat.le_refl _, by simp⟩
  | lost l =>
    simp only [RFc.step, RFc.frameLost] at hs
    cases hs
    split
    · exact ⟨⟨h1, h2, h3, h4⟩, Nat.le_refl _, by simp⟩
    · exact ⟨⟨h1, h2, h3, h4⟩, Nat.le_refl _, by simp⟩
  | write fits now rtt =>
    obtain ⟨m, hm, hle⟩ := autoTune_spec ⟨h1, h2, h3, h4⟩ now rtt mw
    simp only [RFc.step, RFc.write, hm] at hs
    split at hs
    · split at hs
      · cases hs
        simp only [RFc.frameSent, RFc.nextLimit]
        refine ⟨⟨h1, ?_, ?_, ?_⟩, ?_, ?_⟩
        · simp only; omega
        · simp only; omega
        · simp only; omega
        · omega
        · intro l hl; cases hl; rfl
      · cases hs
        exact ⟨⟨h1, h2, by simp only; omega, h4⟩, Nat.le_refl _, by simp⟩
    · cases hs
      exact ⟨⟨h1, h2, h3, h4⟩, Nat.le_refl _, by simp⟩

private theorem rrun {mw : Nat} {ops : List ROp} : ∀ {s s' : RFc} {ls : List Nat}, RInv s →
    NeverShrinks mw s ops → s.run mw ops = .ok (s', ls) →
    RInv s' ∧ s.maxAllowed ≤ s'.maxAllowed ∧ ls.Pairwise (· ≤ ·) ∧
      (∀ l ∈ ls, s.maxAllowed ≤ l ∧ l ≤ s'.maxAllowed) := by
  induction ops with
  | nil => intro s s' ls h _ hr; cases hr; exact ⟨h, Nat.le_refl _, List.Pairwise.nil, by simp⟩
  | cons op ops ih =>
    intro s s' ls h hn hr
    simp only [RFc.run] at hr
    split at hr
    · cases hr
    · rename_i s1 o hstep
      split at hr
      · cases hr
      · rename_i s2 os hrun
        cases hr
        obtain ⟨hi1, hle1, ho⟩ := rstep_inv h hn.1 hstep
        obtain ⟨hi2, hle2, hpw, hall⟩ := ih hi1 (hn.2 _ _ hstep) hrun
        refine ⟨hi2, by omega, ?_, ?_⟩
        · cases o with
          | none => simpa using hpw
          | some l =>
            have := ho l rfl
            simp only [Option.toList_some, List.cons_append, List.nil_append, List.pairwise_cons]
            exact ⟨fun a ha => by have := (hall a ha).1; omega, hpw⟩
        · intro l hl
          rw [List.mem_append] at hl
          rcases hl with hl | hl
          · cases o with
            | none => simp at hl
            | some l' =>
              simp only [Option.toList_some, List.mem_singleton] at hl
              subst hl
              have := ho l rfl
              omega
          · have := hall l hl; omega

private theorem rinit {max : Nat} (h : max ≤ maxVarint) : RInv (RFc.new max) :=
  ⟨by simp [RFc.new], by simp [RFc.new], by simp [RFc.new], h⟩

/-- MAX_DATA and MAX_STREAM_DATA: the limits advertised in any history never decrease, never fall
below the initial limit and fit a varint — provided the application never shrinks the window.
What is missing from the full statement: histories with `set_stream_max_data` below the window in
force, for which it fails (`C12_shrinking_window_lowers_limit`). -/
theorem C12_limits_monotone_partial {mw max : Nat} {ops : List ROp} {s : RFc} {ls : List Nat}
    (hmax : max ≤ maxVarint) (hgrow : NeverShrinks mw (RFc.new max) ops)
    (hr : (RFc.new max).run mw ops = .ok (s, ls)) :
    (max :: ls).Pairwise (· ≤ ·) ∧ ∀ l ∈ ls, l ≤ maxVarint := by
  obtain ⟨hi, _, hpw, hall⟩ := rrun (rinit hmax) hgrow hr
  refine ⟨List.pairwise_cons.mpr ⟨fun a ha => (hall a ha).1, hpw⟩, fun l hl => ?_⟩
  have h1 := hall l hl; have h2 := hi.cap; omega

/-- The connection-level window cannot be changed by the application
(`set_stream_max_data` only reaches streams), so for MAX_DATA the statement holds
without proviso. -/
theorem C12_connection_limits_monotone {max : Nat} {ops : List ROp} {s : RFc} {ls : List Nat}
    (hmax : max ≤ maxVarint) (hconn : ∀ w, ROp.setWindow w ∉ ops)
    (hr : (RFc.new max).run maxLocalMaxData ops = .ok (s, ls)) :
    (max :: ls).Pairwise (· ≤ ·) ∧ ∀ l ∈ ls, l ≤ maxVarint := by
  refine C12_limits_monotone_partial hmax ?_ hr
  generalize RFc.new max = s0
  clear hr
  induction ops generalizing s0 with
  | nil => trivial
  | cons op ops ih =>
    refine ⟨fun w hw => absurd (by simp [hw]) (hconn w), fun s1 o _ => ih (fun w hw => ?_) s1⟩
    exact hconn w (List.mem_cons_of_mem _ hw)

/-- MAX_STREAMS: limits advertised never decrease and fit a varint. -/
theorem C12_stream_count_limits_monotone {max : Nat} (hmax : max ≤ maxVarint) (ops : List CountOp) :
    (max :: ((RFc.new max).countRun ops).2).Pairwise (· ≤ ·) ∧
    ∀ l ∈ ((RFc.new max).countRun ops).2, l ≤ maxVarint := by
  have key : ∀ (ops : List CountOp) (s : RFc), s.maxAllowed ≤ s.retired + s.maxActive →
      s.maxAllowed ≤ maxVarint →
      (s.countRun ops).2.Pairwise (· ≤ ·) ∧
      ∀ l ∈ (s.countRun ops).2, s.maxAllowed ≤ l ∧ l ≤ maxVarint := by
    intro ops
    induction ops with
    | nil => intro s _ _; exact ⟨List.Pairwise.nil, by simp [RFc.countRun]⟩
    | cons op ops ih =>
      intro s h1 h2
      have hstep : (s.countStep op).1.maxAllowed ≤
            (s.countStep op).1.retired + (s.countStep op).1.maxActive ∧
          (s.countStep op).1.maxAllowed ≤ maxVarint ∧
          s.maxAllowed ≤ (s.countStep op).1.maxAllowed ∧
          ∀ l, (s.countStep op).2 = some l → l = (s.countStep op).1.maxAllowed := by
        cases op with
        | retired n =>
          simp only [RFc.countStep, RFc.addRetiredStreams, RFc.sendFlowcUpdate]
          repeat' split
          all_goals refine ⟨?_, h2, Nat.le_refl _, by simp⟩; simp only; omega
        | peerBlocked =>
          simp only [RFc.countStep, RFc.sendFlowcUpdate]
          split <;> exact ⟨h1, h2, Nat.le_refl _, by simp⟩
        | lost l =>
          simp only [RFc.countStep, RFc.frameLost]
          split <;> exact ⟨h1, h2, Nat.le_refl _, by simp⟩
        | write fits =>
          simp only [RFc.countStep, RFc.writeStreams, RFc.frameSent, RFc.nextLimit]
          split
          · split
            · refine ⟨?_, ?_, ?_, ?_⟩
              · simp only; omega
              · simp only; omega
              · simp only; omega
              · intro l hl; cases hl; rfl
            · exact ⟨h1, h2, Nat.le_refl _, by simp⟩
          · exact ⟨h1, h2, Nat.le_refl _, by simp⟩
      obtain ⟨a, b, c, d⟩ := hstep
      obtain ⟨hpw, hall⟩ := ih _ a b
      simp only [RFc.countRun]
      refine ⟨?_, ?_⟩
      · cases ho : (s.countStep op).2 with
        | none => simpa using hpw
        | some l =>
          have := d l ho
          simp only [Option.toList_some, List.cons_append, List.nil_append, List.pairwise_cons]
          exact ⟨fun x hx => by have := (hall x hx).1; omega, hpw⟩
      · intro l hl
        rw [List.mem_append] at hl
        rcases hl with hl | hl
        · cases ho : (s.countStep op).2 with
          | none => rw [ho] at hl; simp at hl
          | some l' =>
            rw [ho] at hl
            simp only [Option.toList_some, List.mem_singleton] at hl
            subst hl
            have := d l ho
            omega
        · have := hall l hl; omega
  obtain ⟨hpw, hall⟩ := key ops (RFc.new max) (by simp [RFc.new]) hmax
  exact ⟨List.pairwise_cons.mpr ⟨fun a ha => (hall a ha).1, hpw⟩, fun l hl => (hall l hl).2⟩

/-- The full statement fails: with an update pending, shrinking the window from 100 to 10
makes the next MAX_STREAM_DATA carry 50 although 100 had been advertised.  From then on a
peer that uses the 100 bytes it was promised is refused. -/
theorem C12_shrinking_window_lowers_limit :
    ∃ ops s ls, (RFc.new 100).run maxLocalMaxStreamData ops = .ok (s, ls) ∧ (∃ l ∈ ls, l < 100) ∧
      (s.step maxLocalMaxStreamData (.received 100)) = .error .flowControl :=
  ⟨[.received 40, .retired 40, .setWindow 10, .write true 0 0], _, [50], rfl, ⟨50, by simp, by decide⟩,
    rfl⟩

example : ((RFc.new 100).run maxLocalMaxData
    [.received 40, .retired 40, .write true 5 10, .lost 140, .received 140, .retired 100,
     .write true 6 10]).map (·.2) = .ok [140, 612] := by decide +kernel

/-! ## C47: a window that has been freed is advertised again -/

/-- In any history that does not shrink the window, if no update is pending then the peer still
has at least three quarters of the window available (or the limit is the largest possible). -/
theorem C47_update_pending_or_window_open {mw max : Nat} {ops : List ROp} {s : RFc} {ls : List Nat}
    (hmax : max ≤ maxVarint) (hgrow : NeverShrinks mw (RFc.new max) ops)
    (hr : (RFc.new max).run mw ops = .ok (s, ls)) (hp : s.framePending = false) :
    s.maxActive - s.maxActive / 4 ≤ s.maxAllowed - s.retired ∨ s.maxAllowed = maxVarint := by
  suffices ∀ (ops : List ROp) (t : RFc) ls, RInv t → NeverShrinks mw t ops →
      (t.framePending = false → t.maxActive - t.maxActive / 4 ≤ t.maxAllowed - t.retired ∨
        t.maxAllowed = maxVarint) →
      t.run mw ops = .ok (s, ls) →
      (s.framePending = false → s.maxActive - s.maxActive / 4 ≤ s.maxAllowed - s.retired ∨
        s.maxAllowed = maxVarint) from
    this ops _ ls (rinit hmax) hgrow (by intro _; simp only [RFc.new]; omega) hr hp
  clear hr hgrow hp
  intro ops
  induction ops with
  | nil => intro t ls _ _ h hr; cases hr; exact h
  | cons op ops ih =>
    intro t ls hi hn h hr
    simp only [RFc.run] at hr
    split at hr
    · cases hr
    · rename_i s1 o hstep
      split at hr
      · cases hr
      · rename_i s2 os hrun
        cases hr
        obtain ⟨hi1, _, _⟩ := rstep_inv hi hn.1 hstep
        refine ih s1 os hi1 (hn.2 _ _ hstep) ?_ hrun
        cases op with
        | received n =>
          obtain ⟨_, h5 | ⟨h5, _⟩⟩ := step_received hstep
          · subst h5; exact h
          · subst h5; exact h
        | retired n =>
          obtain ⟨_, _, _, b, hb, hb'⟩ := step_retired hstep
          subst hb
          intro hf
          exact .inl (hb' hf).2
        | peerBlocked =>
          simp only [RFc.step, RFc.sendFlowcUpdate] at hstep
          cases hstep
          split
          · intro hf; cases hf
          · exact h
        | setWindow w =>
          simp only [RFc.step, RFc.setMaxActive] at hstep
          cases hstep
          have hw := hn.1 w rfl
          intro hf
          simp only [Bool.or_eq_false_iff, decide_eq_false_iff_not] at hf
          have : w = t.maxActive := by omega
          subst this
          exact h hf.1
        | lost l =>
          simp only [RFc.step, RFc.frameLost] at hstep
          cases hstep
          split
          · intro hf; cases hf
          · exact h
        | write fits now rtt =>
          obtain ⟨m, hm, hle⟩ := autoTune_spec hi now rtt mw
          simp only [RFc.step, RFc.write, hm] at hstep
          split at hstep
          · rename_i hpend
            split at hstep
            · cases hstep
              intro _
              simp only [RFc.frameSent, RFc.nextLimit]
              have := hi.ret; have := hi.con; have := hi.cap
              omega
            · cases hstep
              intro hf; simp only at hf; rw [hpend] at hf; cases hf
          · cases hstep; exact h

example : ∃ s, (RFc.new 100).run maxLocalMaxData [.received 40, .retired 20] = .ok (s, []) ∧
    s.framePending = false ∧ s.maxActive - s.maxActive / 4 ≤ s.maxAllowed - s.retired :=
  ⟨_, rfl, rfl, by decide⟩
example : ∃ s, (RFc.new 100).run maxLocalMaxData [.received 40, .retired 26] = .ok (s, []) ∧
    s.framePending = true := ⟨_, rfl, rfl⟩

end Neqo.Flow
