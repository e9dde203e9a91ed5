import Verif.H3.ReaderSteps

/-! The loops around the reader. -/
namespace Neqo.H3
open Neqo.Codec
open Spec (Kind cut also read)

variable {T : Type} {F : FrameDecoder T} {payload : T → Nat} {kind : Nat → Kind T}

/-- What may follow the bytes at hand: nothing once the end is known. -/
def Follows (s : Src) (rest : Bytes) (fin : Bool) : Prop :=
  s.fin = true → rest = [] ∧ fin = true

/-- What `receive` must achieve. -/
def GoodRecv (payload : T → Nat) (kind : Nat → Kind T) (r : Reader) (s : Src) :
    Except Err (Reader × Src × Option T × Bool) → Prop
  | .error e => ∀ rest fin, Follows s rest fin →
      from' kind ⟨r, 0⟩ (s.avail ++ rest) fin = ([], .failed e)
  | .ok (r', s', some f, fin') =>
    r'.state = .getType {} ∧ s'.fin = s.fin ∧ fin' = (s.fin && s'.avail.length = 0) ∧
      s'.avail.length < s.avail.length ∧
      ∀ rest fin, Follows s rest fin → from' kind ⟨r, 0⟩ (s.avail ++ rest) fin =
        also [.frame f] (from' kind ⟨r', payload f⟩ (s'.avail ++ rest) fin)
  | .ok (_, _, none, true) =>
    s.fin = true ∧ from' kind ⟨r, 0⟩ s.avail true = ([], .finished)
  | .ok (r', _, none, false) =>
    VR kind r' ∧ s.fin = false ∧ ∀ rest fin,
      from' kind ⟨r, 0⟩ (s.avail ++ rest) fin = from' kind ⟨r', 0⟩ rest fin

theorem minRemaining_pos (r : Reader) (hv : VR kind r) : 0 < r.minRemaining := by
  unfold VR at hv
  unfold Reader.minRemaining
  cases hs : r.state with
  | getType d =>
    rw [hs] at hv
    cases hr : d.remaining with
    | none => simp [IncUint.minRemaining, hr]
    | some k => simp [IncUint.minRemaining, hr, (hv k hr).1]
  | getLength d =>
    rw [hs] at hv
    cases hr : d.remaining with
    | none => simp [IncUint.minRemaining, hr]
    | some k => simp [IncUint.minRemaining, hr, (hv.1 k hr).1]
  | getData d => rw [hs] at hv; exact hv.1
  | discharge n => rw [hs] at hv; exact hv

theorem receiveLoop_succ (F : FrameDecoder T) (fuel : Nat) (r : Reader) (s : Src) :
    r.receiveLoop F (fuel + 1) s =
      match (if s.avail.take (min r.minRemaining maxReadSize) = [] then pure (r, none)
        else r.consume F (s.avail.take (min r.minRemaining maxReadSize)) :
          Except Err (Reader × Option T)) with
      | .error e => .error e
      | .ok (r', some f) => pure (r', ⟨s.avail.drop (min r.minRemaining maxReadSize), s.fin⟩, some f,
          s.fin && s.avail.length ≤ min r.minRemaining maxReadSize)
      | .ok (r', none) =>
        if s.fin && s.avail.length ≤ min r.minRemaining maxReadSize then
          if r'.inProgress then .error .httpFrame
          else pure (r', ⟨s.avail.drop (min r.minRemaining maxReadSize), s.fin⟩, none, true)
        else if s.avail.take (min r.minRemaining maxReadSize) = [] then
          pure (r', ⟨s.avail.drop (min r.minRemaining maxReadSize), s.fin⟩, none, false)
        else r'.receiveLoop F fuel ⟨s.avail.drop (min r.minRemaining maxReadSize), s.fin⟩ := rfl

theorem run_succ (F : FrameDecoder T) (payload : T → Nat) (fuel : Nat) (p : Pump) (s : Src) :
    p.run F payload (fuel + 1) s =
      if p.left > 0 then
        if p.left - (s.avail.take p.left).length > 0 then
          ((s.avail.take p.left).map Item.byte,
            if s.fin && s.avail.length ≤ p.left then .failed .httpFrame else .more,
            ⟨p.reader, p.left - (s.avail.take p.left).length⟩)
        else if s.fin && s.avail.length ≤ p.left then
          ((s.avail.take p.left).map Item.byte, .finished, ⟨Reader.new, 0⟩)
        else
          let x := Pump.run F payload fuel ⟨Reader.new, 0⟩ ⟨s.avail.drop p.left, s.fin⟩
          ((s.avail.take p.left).map Item.byte ++ x.1, x.2.1, x.2.2)
      else
        match p.reader.receive F s with
        | .error e => ([], .failed e, p)
        | .ok (r, _, none, fin) => ([], if fin then .finished else .more, ⟨r, 0⟩)
        | .ok (r, s', some f, fin) =>
          if fin && payload f = 0 then ([.frame f], .finished, ⟨r, 0⟩)
          else
            let x := Pump.run F payload fuel ⟨r, payload f⟩ s'
            (.frame f :: x.1, x.2.1, x.2.2) := rfl

theorem receiveLoop_good (ha : Agrees F payload kind) : ∀ (fuel : Nat) (r : Reader) (s : Src),
    VR kind r → s.avail.length < fuel → GoodRecv payload kind r s (r.receiveLoop F fuel s) := by
  intro fuel
  induction fuel with
  | zero => intro r s _ h; omega
  | succ fuel ih =>
    intro r s hv hf
    have hmin := minRemaining_pos r hv
    have hto : 0 < min r.minRemaining maxReadSize := by
      have : 0 < maxReadSize := by decide
      omega
    rw [receiveLoop_succ]
    generalize hn : min r.minRemaining maxReadSize = n at *
    by_cases he : s.avail = []
    · have h1 : s.avail.take n = [] := by rw [he, List.take_nil]
      rw [if_pos h1]
      simp only [pure, Except.pure, he, List.length_nil, Nat.zero_le, decide_true, Bool.and_true,
        List.take_nil, if_true]
      cases hfin : s.fin with
      | false =>
        simp only [Bool.false_eq_true, if_false]
        exact ⟨hv, hfin, fun rest fin => by rw [he]; rfl⟩
      | true =>
        simp only [if_true]
        have h2 := from_nil_true r hv
        cases hp : r.inProgress with
        | true =>
          simp only [if_true]
          intro rest fin hfol
          obtain ⟨rfl, rfl⟩ := hfol hfin
          rw [he, List.append_nil, h2, hp]; rfl
        | false =>
          simp only [Bool.false_eq_true, if_false]
          exact ⟨hfin, by rw [he, h2, hp]; rfl⟩
    · have hpos : 0 < s.avail.length := List.length_pos_iff.mpr he
      have h1 : s.avail.take n ≠ [] := by
        intro h
        have := congrArg List.length h
        simp only [List.length_take, List.length_nil] at this
        omega
      rw [if_neg h1]
      have hlen : (s.avail.take n).length ≤ r.minRemaining := by
        rw [List.length_take]; omega
      have hg := consume_good ha r hv (s.avail.take n) h1 hlen
      have hsplit : ∀ rest, s.avail ++ rest = s.avail.take n ++ (s.avail.drop n ++ rest) := by
        intro rest; rw [← List.append_assoc, List.take_append_drop]
      cases hc : r.consume F (s.avail.take n) with
      | error e =>
        rw [hc] at hg
        simp only
        intro rest fin _
        rw [hsplit]; exact hg _ _
      | ok x =>
        obtain ⟨r', o⟩ := x
        rw [hc] at hg
        cases o with
        | some f =>
          simp only [pure, Except.pure]
          refine ⟨hg.1, rfl, ?_, ?_, ?_⟩
          · simp only [List.length_drop]
            congr 1
            exact decide_eq_decide.mpr (by omega)
          · simp only [List.length_drop]; omega
          · intro rest fin _
            rw [hsplit]; exact hg.2 _ _
        | none =>
          simp only
          cases hfin : (s.fin && decide (s.avail.length ≤ n)) with
          | true =>
            simp only [if_true]
            obtain ⟨hsf, hle⟩ : s.fin = true ∧ s.avail.length ≤ n := by simpa using hfin
            have hdrop : s.avail.drop n = [] := List.drop_of_length_le hle
            have h2 := from_nil_true r' hg.1
            have h3 : from' kind ⟨r, 0⟩ s.avail true = from' kind ⟨r', 0⟩ [] true := by
              have := hg.2 [] true
              rw [List.append_nil, List.take_of_length_le hle] at this
              exact this
            cases hp : r'.inProgress with
            | true =>
              simp only [if_true]
              intro rest fin hfol
              obtain ⟨rfl, rfl⟩ := hfol hsf
              rw [List.append_nil, h3, h2, hp]; rfl
            | false =>
              simp only [Bool.false_eq_true, if_false, pure, Except.pure]
              exact ⟨hsf, by rw [h3, h2, hp]; rfl⟩
          | false =>
            simp only [Bool.false_eq_true, if_false, h1]
            have hi := ih r' ⟨s.avail.drop n, s.fin⟩ hg.1 (by simp only [List.length_drop]; omega)
            have hstep : ∀ rest fin, from' kind ⟨r, 0⟩ (s.avail ++ rest) fin =
                from' kind ⟨r', 0⟩ (s.avail.drop n ++ rest) fin := by
              intro rest fin; rw [hsplit]; exact hg.2 _ _
            cases hl : r'.receiveLoop F fuel ⟨s.avail.drop n, s.fin⟩ with
            | error e =>
              rw [hl] at hi
              intro rest fin hfol
              rw [hstep]; exact hi rest fin hfol
            | ok x =>
              obtain ⟨r2, s2, o, fin2⟩ := x
              rw [hl] at hi
              cases o with
              | some f =>
                obtain ⟨i1, i2, i3, i4, i5⟩ := hi
                refine ⟨i1, i2, i3, ?_, fun rest fin hfol => ?_⟩
                · simp only [List.length_drop] at i4; omega
                · rw [hstep]; exact i5 rest fin hfol
              | none =>
                cases fin2 with
                | true =>
                  obtain ⟨i1, i2⟩ := hi
                  refine ⟨i1, ?_⟩
                  have := hstep [] true
                  rw [List.append_nil, List.append_nil] at this
                  rw [this]; exact i2
                | false =>
                  obtain ⟨i1, i2, i3⟩ := hi
                  exact ⟨i1, i2, fun rest fin => by rw [hstep]; exact i3 rest fin⟩

/-- What one activation must achieve. -/
def GoodRun (kind : Nat → Kind T) (p : Pump) (s : Src) (x : List (Item T) × End × Pump) : Prop :=
  (x.2.1 = .more → s.fin = false ∧ VP kind x.2.2 ∧
    ∀ rest fin, from' kind p (s.avail ++ rest) fin = also x.1 (from' kind x.2.2 rest fin)) ∧
  (x.2.1 ≠ .more → ∀ rest fin, Follows s rest fin →
    from' kind p (s.avail ++ rest) fin = (x.1, x.2.1))

theorem run_good (ha : Agrees F payload kind) : ∀ (fuel : Nat) (p : Pump) (s : Src),
    VP kind p → s.avail.length < fuel → GoodRun kind p s (p.run F payload fuel s) := by
  intro fuel
  induction fuel with
  | zero => intro p s _ h; omega
  | succ fuel ih =>
    intro p s hv hf
    obtain ⟨r, left⟩ := p
    rw [run_succ]
    simp only
    by_cases hl : left > 0
    · rw [if_pos hl]
      simp only [List.length_take]
      by_cases hs : s.avail.length < left
      · have h1 : left - min left s.avail.length > 0 := by omega
        rw [if_pos h1]
        have h2 : s.avail.take left = s.avail := List.take_of_length_le (by omega)
        have h3 : min left s.avail.length = s.avail.length := by omega
        rw [h2, h3]
        have h4 : decide (s.avail.length ≤ left) = true := decide_eq_true (by omega)
        rw [h4, Bool.and_true]
        cases hfin : s.fin with
        | true =>
          refine ⟨fun h => by simp at h, fun _ rest fin hfol => ?_⟩
          obtain ⟨rfl, rfl⟩ := hfol hfin
          simp only [List.append_nil, from', hl, if_true, hs, h2, also, cut]
        | false =>
          refine ⟨fun _ => ⟨hfin, ?_, fun rest fin => ?_⟩, fun h => by simp at h⟩
          · intro h; simp only at h; omega
          · have h5 : 0 < left - s.avail.length := by omega
            simp only [from', hl, if_true, gt_iff_lt, h5, also_also, List.length_append]
            rw [List.take_append, h2, List.map_append, List.drop_append,
              List.drop_of_length_le (show s.avail.length ≤ left by omega), List.nil_append]
            by_cases h6 : rest.length < left - s.avail.length
            · rw [if_pos h6, if_pos (by omega)]
            · rw [if_neg h6, if_neg (by omega)]
      · have h1 : ¬ left - min left s.avail.length > 0 := by omega
        rw [if_neg h1]
        have hfrom : ∀ rest fin, from' kind ⟨r, left⟩ (s.avail ++ rest) fin =
            also ((s.avail.take left).map .byte) (read kind (s.avail.drop left ++ rest) fin) := by
          intro rest fin
          simp only [from', hl, if_true, List.length_append]
          rw [if_neg (by omega), List.take_append_of_le_length (by omega),
            List.drop_append_of_le_length (by omega)]
        cases hfin : (s.fin && decide (s.avail.length ≤ left)) with
        | true =>
          obtain ⟨hsf, hle⟩ : s.fin = true ∧ s.avail.length ≤ left := by simpa using hfin
          simp only [if_true]
          refine ⟨fun h => by simp at h, fun _ rest fin hfol => ?_⟩
          obtain ⟨rfl, rfl⟩ := hfol hsf
          rw [hfrom, List.drop_of_length_le hle, List.append_nil, read_nil]
          simp [also]
        | false =>
          simp only [Bool.false_eq_true, if_false]
          have hi := ih ⟨Reader.new, 0⟩ ⟨s.avail.drop left, s.fin⟩ (fun _ => vr_new)
            (by simp only [List.length_drop]; omega)
          obtain ⟨hi1, hi2⟩ := hi
          refine ⟨fun h => ?_, fun h rest fin hfol => ?_⟩
          · obtain ⟨i1, i2, i3⟩ := hi1 h
            refine ⟨i1, i2, fun rest fin => ?_⟩
            rw [hfrom, ← from_reset Reader.new rfl, i3, also_also]
          · rw [hfrom, ← from_reset Reader.new rfl, hi2 h rest fin hfol]; rfl
    · obtain rfl : left = 0 := by omega
      simp only [gt_iff_lt, Nat.lt_irrefl, if_false]
      have hg := receiveLoop_good ha (s.avail.length + 1) r s (hv rfl) (by omega)
      unfold Reader.receive
      cases hr : r.receiveLoop F (s.avail.length + 1) s with
      | error e =>
        rw [hr] at hg
        simp only
        exact ⟨fun h => by simp at h, fun _ rest fin hfol => hg rest fin hfol⟩
      | ok x =>
        obtain ⟨r', s', o, fin'⟩ := x
        rw [hr] at hg
        cases o with
        | none =>
          cases fin' with
          | true =>
            simp only [if_true]
            refine ⟨fun h => by simp at h, fun _ rest fin hfol => ?_⟩
            obtain ⟨rfl, rfl⟩ := hfol hg.1
            rw [List.append_nil]; exact hg.2
          | false =>
            simp only [Bool.false_eq_true, if_false]
            refine ⟨fun _ => ⟨hg.2.1, fun _ => hg.1, fun rest fin => hg.2.2 rest fin⟩,
              fun h => by simp at h⟩
        | some f =>
          obtain ⟨g1, g2, g3, g4, g5⟩ := hg
          simp only
          by_cases hd : (fin' && decide (payload f = 0)) = true
          · rw [if_pos hd]
            simp only [Bool.and_eq_true, decide_eq_true_eq] at hd
            obtain ⟨hd1, hd2⟩ := hd
            rw [hd1] at g3
            have g3' : s.fin = true ∧ s'.avail = [] := by
              simp only [Bool.true_eq, Bool.and_eq_true, decide_eq_true_eq] at g3
              exact ⟨g3.1, List.length_eq_zero_iff.mp g3.2⟩
            refine ⟨fun h => by simp at h, fun _ rest fin hfol => ?_⟩
            have := g5 rest fin hfol
            obtain ⟨rfl, rfl⟩ := hfol g3'.1
            rw [this, g3'.2, hd2]
            rw [from_reset r' g1]; rfl
          · rw [if_neg hd]
            have hi := ih ⟨r', payload f⟩ s' (fun _ => vr_reset g1) (by omega)
            obtain ⟨hi1, hi2⟩ := hi
            refine ⟨fun h => ?_, fun h rest fin hfol => ?_⟩
            · obtain ⟨i1, i2, i3⟩ := hi1 h
              refine ⟨by rw [← g2]; exact i1, i2, fun rest fin => ?_⟩
              rw [g5 rest fin (by intro h'; rw [← g2, i1] at h'; cases h'), i3, also_also]; rfl
            · rw [g5 rest fin hfol, hi2 h rest fin (by intro h'; exact hfol (by rw [← g2]; exact h'))]
              rfl

end Neqo.H3
