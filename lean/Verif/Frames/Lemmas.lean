import Verif.Frames.Spec
import Verif.Codec.Props

/-! Reading and writing the fields of frames. -/
namespace Neqo.Frm
open Neqo.Codec

theorem Except.bind_eq_ok {α β ε : Type} {x : Except ε α} {f : α → Except ε β} {b : β} :
    (x >>= f) = .ok b ↔ ∃ a, x = .ok a ∧ f a = .ok b := by
  cases x <;> simp [bind, Except.bind]

theorem Except.pure_eq_ok {α ε : Type} {a b : α} : (pure a : Except ε α) = .ok b ↔ a = b := by
  simp [pure, Except.pure]

theorem IsVar.lt {v : Nat} {e : Bytes} (h : IsVar v e) : v < 2 ^ 62 := by
  obtain ⟨k, hk, _, hv, _⟩ := h
  have : k = 0 ∨ k = 1 ∨ k = 2 ∨ k = 3 := by omega
  rcases this with rfl | rfl | rfl | rfl <;> norm_num at hv ⊢ <;> omega

theorem IsVar.ne_nil {v : Nat} {e : Bytes} (h : IsVar v e) : e ≠ [] := by
  obtain ⟨k, _, hl, _, _⟩ := h
  rintro rfl
  exact absurd hl.symm (Nat.ne_of_gt (Nat.two_pow_pos _))

theorem IsVar.length_le {v : Nat} {e : Bytes} (h : IsVar v e) : e.length ≤ 8 := by
  obtain ⟨k, hk, hl, _⟩ := h
  have : k = 0 ∨ k = 1 ∨ k = 2 ∨ k = 3 := by omega
  rcases this with rfl | rfl | rfl | rfl <;> omega

theorem IsVar.first {v : Nat} {b : UInt8} {s : Bytes} (h : IsVar v (b :: s)) :
    announcedLen b = (b :: s).length ∧ v = beVal (b :: s) % 2 ^ (8 * (b :: s).length - 2) := by
  obtain ⟨k, hk, hl, hv, he⟩ := h
  have hb := b.toNat_lt
  have hs := beVal_lt s
  rw [he, hl]
  refine ⟨?_, (by rw [Nat.mul_add_mod_of_lt' hv])⟩
  unfold announcedLen
  have hlen : s.length = 2 ^ k - 1 := by simp only [List.length_cons] at hl; omega
  rw [beVal, hlen] at he
  rw [hlen] at hs
  have hk4 : k = 0 ∨ k = 1 ∨ k = 2 ∨ k = 3 := by omega
  have : b.toNat / 64 = k := by
    rcases hk4 with rfl | rfl | rfl | rfl <;> norm_num at he hs hv ⊢ <;> omega
  rw [this]
where
  Nat.mul_add_mod_of_lt' {k n v : Nat} (h : v < n) : (k * n + v) % n = v := by
    rw [Nat.mul_comm, Nat.mul_add_mod, Nat.mod_eq_of_lt h]

theorem var_enc {v : Nat} {e : Bytes} (h : IsVar v e) (r : Bytes) : decodeVarint (e ++ r) = some (v, r) := by
  cases e with
  | nil => exact absurd rfl h.ne_nil
  | cons b s =>
    obtain ⟨h1, h2⟩ := h.first
    rw [List.cons_append, decodeVarint_announced, if_neg (by rw [h1]; simp), h1]
    rw [← List.cons_append, List.take_left, List.drop_left, ← h2]

theorem var_dec {b r : Bytes} {v : Nat} (h : decodeVarint b = some (v, r)) : ∃ e, IsVar v e ∧ b = e ++ r := by
  cases b with
  | nil => rw [C02_decode_nil] at h; cases h
  | cons x s =>
    have hx := x.toNat_lt
    rw [decodeVarint_announced] at h
    split at h
    · cases h
    · rename_i hl
      simp only [Option.some.injEq, Prod.mk.injEq] at h
      obtain ⟨rfl, rfl⟩ := h
      refine ⟨_, ?_, (List.take_append_drop _ _).symm⟩
      have hlen : ((x :: s).take (announcedLen x)).length = 2 ^ (x.toNat / 64) := by
        rw [List.length_take]; unfold announcedLen at hl ⊢; omega
      have hb := beVal_lt ((x :: s).take (announcedLen x))
      have hmod : ∀ n, beVal ((x :: s).take (announcedLen x)) % 2 ^ n < 2 ^ n := fun n => Nat.mod_lt _ (Nat.two_pow_pos _)
      refine ⟨x.toNat / 64, by omega, hlen, hmod _, ?_⟩
      have e1 : announcedLen x = (announcedLen x - 1) + 1 := by
        have : 0 < announcedLen x := Nat.two_pow_pos _
        omega
      have hs := beVal_lt (s.take (announcedLen x - 1))
      have hval : beVal ((x :: s).take (announcedLen x)) =
          x.toNat * 256 ^ (announcedLen x - 1) + beVal (s.take (announcedLen x - 1)) := by
        rw [e1, List.take_succ_cons, beVal, List.length_take, Nat.add_sub_cancel, Nat.min_eq_left]
        simp only [List.length_cons] at hl; omega
      rw [List.length_take, Nat.min_eq_left (by simp only [List.length_cons] at hl; omega)] at hs
      rw [hval]
      unfold announcedLen at hs ⊢
      generalize beVal (s.take (2 ^ (x.toNat / 64) - 1)) = y at hs
      have hk4 : x.toNat / 64 = 0 ∨ x.toNat / 64 = 1 ∨ x.toNat / 64 = 2 ∨ x.toNat / 64 = 3 := by omega
      rcases hk4 with hk | hk | hk | hk <;> rw [hk] at hs ⊢ <;> norm_num at hs ⊢ <;> omega

theorem dv_ok {b r : Bytes} {v : Nat} : dv b = .ok (v, r) ↔ ∃ e, IsVar v e ∧ b = e ++ r := by
  unfold dv d
  constructor
  · intro h
    cases hd : decodeVarint b with
    | none => rw [hd] at h; cases h
    | some x => rw [hd] at h; cases h; exact var_dec hd
  · rintro ⟨e, he, rfl⟩
    rw [var_enc he]

theorem dv_enc {v : Nat} {e : Bytes} (h : IsVar v e) (r : Bytes) : dv (e ++ r) = .ok (v, r) := dv_ok.mpr ⟨e, h, rfl⟩

theorem raw_ok {n : Nat} {b x r : Bytes} : d (Codec.decode n b) = .ok (x, r) ↔ x.length = n ∧ b = x ++ r := by
  unfold d Codec.decode
  split
  · rename_i h
    split at h
    · cases h
    · cases h
      constructor
      · intro h; cases h
        exact ⟨by rw [List.length_take]; omega, (List.take_append_drop _ _).symm⟩
      · rintro ⟨rfl, rfl⟩
        rw [List.take_left, List.drop_left]
  · rename_i h
    split at h
    · constructor
      · intro h; cases h
      · rintro ⟨rfl, rfl⟩
        rename_i hl
        simp at hl
    · cases h

theorem counted_ok {b x r : Bytes} : d (decodeVvec b) = .ok (x, r) ↔ ∃ e, (Field.counted x).Is e ∧ b = e ++ r := by
  unfold decodeVvec
  constructor
  · intro h
    cases hd : decodeVarint b with
    | none => rw [hd] at h; cases h
    | some y =>
      obtain ⟨v, s⟩ := y
      rw [hd] at h
      obtain ⟨e, he, rfl⟩ := var_dec hd
      obtain ⟨rfl, rfl⟩ := raw_ok.mp h
      exact ⟨e ++ x, ⟨e, he, rfl⟩, by simp⟩
  · rintro ⟨e, ⟨l, hl, rfl⟩, rfl⟩
    rw [List.append_assoc, var_enc hl]
    exact raw_ok.mpr ⟨rfl, rfl⟩

theorem byte_ok {b r : Bytes} {v : Nat} : d (decodeN 1 b) = .ok (v, r) ↔ ∃ x : UInt8, x.toNat = v ∧ b = x :: r := by
  cases b with
  | nil => simp [d, decodeN]
  | cons x s =>
    rw [decodeN_one_cons]
    simp only [d, Except.ok.injEq, Prod.mk.injEq, List.cons.injEq]
    constructor
    · rintro ⟨rfl, rfl⟩; exact ⟨x, rfl, rfl, rfl⟩
    · rintro ⟨y, rfl, rfl, rfl⟩; exact ⟨rfl, rfl⟩

theorem short_ok {b x r : Bytes} : d (decodeVec 1 b) = .ok (x, r) ↔ ∃ e, (Field.short x).Is e ∧ b = e ++ r := by
  unfold decodeVec
  constructor
  · intro h
    cases hd : decodeN 1 b with
    | none => rw [hd] at h; cases h
    | some y =>
      obtain ⟨v, s⟩ := y
      rw [hd] at h
      obtain ⟨y, rfl, rfl⟩ := byte_ok.mp (show d (decodeN 1 b) = .ok (v, s) by rw [hd]; rfl)
      obtain ⟨hl, rfl⟩ := raw_ok.mp h
      exact ⟨y :: x, ⟨y, hl.symm, rfl⟩, by simp⟩
  · rintro ⟨e, ⟨l, hl, rfl⟩, rfl⟩
    rw [List.cons_append, decodeN_one_cons, hl]
    exact raw_ok.mpr ⟨rfl, rfl⟩

theorem skip_eq {v : UInt8} (b : Bytes) :
    b = List.replicate (skipWhile v b).1 v ++ (skipWhile v b).2 ∧ ∀ x xs, (skipWhile v b).2 = x :: xs → x ≠ v := by
  induction b with
  | nil => exact ⟨rfl, fun _ _ h => by cases h⟩
  | cons y ys ih =>
    unfold skipWhile
    by_cases hy : y = v
    · subst hy
      rw [if_pos rfl]
      exact ⟨by simp only [List.replicate_succ, List.cons_append]; rw [← ih.1], ih.2⟩
    · rw [if_neg hy]
      exact ⟨rfl, fun x xs h => by cases h; exact hy⟩

theorem skip_rep {v : UInt8} (n : Nat) {r : Bytes} (h : ∀ x xs, r = x :: xs → x ≠ v) :
    skipWhile v (List.replicate n v ++ r) = (n, r) := by
  induction n with
  | zero =>
    cases r with
    | nil => rfl
    | cons x xs =>
      show skipWhile v (x :: xs) = _
      rw [skipWhile, if_neg (h x xs rfl)]
  | succ n ih => rw [List.replicate_succ, List.cons_append, skipWhile, if_pos rfl, ih]

theorem ofCode_ok {n : Nat} {t : FType} : FType.ofCode n = .ok t ↔ t.code = n := by
  constructor
  · intro h
    unfold FType.ofCode at h
    split at h
    · rename_i t' h'
      cases h
      simpa using List.find?_some h'
    · cases h
  · rintro rfl
    cases t <;> (try rename_i b; cases b) <;> (try rename_i b; cases b) <;> (try rename_i b; cases b) <;> decide +kernel

theorem fields_append {a b : List Field} {e : Bytes} :
    Fields (a ++ b) e ↔ ∃ x y, Fields a x ∧ Fields b y ∧ e = x ++ y := by
  induction a generalizing e with
  | nil =>
    constructor
    · intro h; exact ⟨[], e, rfl, h, rfl⟩
    · rintro ⟨x, y, rfl, h, rfl⟩; exact h
  | cons f a ih =>
    constructor
    · rintro ⟨x, y, h1, h2, rfl⟩
      obtain ⟨x', y', h3, h4, rfl⟩ := ih.mp h2
      exact ⟨x ++ x', y', ⟨x, x', h1, h3, rfl⟩, h4, by simp⟩
    · rintro ⟨x, y, ⟨x1, x2, h1, h2, rfl⟩, h4, rfl⟩
      exact ⟨x1, x2 ++ y, h1, ih.mpr ⟨x2, y, h2, h4, rfl⟩, by simp⟩

theorem decodeAckRanges_ok {n : Nat} {b r : Bytes} {rs : List (Nat × Nat)} :
    decodeAckRanges n b = .ok (rs, r) ↔
      rs.length = n ∧ ∃ e, Fields (rs.flatMap (fun p => [.var p.1, .var p.2])) e ∧ b = e ++ r := by
  induction n generalizing b rs with
  | zero =>
    unfold decodeAckRanges
    constructor
    · intro h; cases h; exact ⟨rfl, [], rfl, rfl⟩
    · rintro ⟨h1, e, h2, rfl⟩
      cases rs with
      | nil => cases h2; rfl
      | cons _ _ => cases h1
  | succ n ih =>
    unfold decodeAckRanges
    constructor
    · intro h
      simp only [Except.bind_eq_ok, Except.pure_eq_ok] at h
      obtain ⟨⟨g, b1⟩, h1, ⟨ra, b2⟩, h2, ⟨rs', b3⟩, h3, h4⟩ := h
      cases h4
      obtain ⟨e1, he1, rfl⟩ := dv_ok.mp h1
      obtain ⟨e2, he2, rfl⟩ := dv_ok.mp h2
      obtain ⟨rfl, e3, he3, rfl⟩ := ih.mp h3
      exact ⟨rfl, e1 ++ (e2 ++ e3), ⟨e1, _, he1, ⟨e2, _, he2, he3, rfl⟩, rfl⟩, by simp⟩
    · rintro ⟨h1, e, h2, rfl⟩
      cases rs with
      | nil => cases h1
      | cons p rs =>
        obtain ⟨g, ra⟩ := p
        obtain ⟨e1, _, he1, ⟨e2, e3, he2, he3, rfl⟩, rfl⟩ := h2
        have h3 := (ih (b := e3 ++ r) (rs := rs)).mpr ⟨by simpa using h1, e3, he3, rfl⟩
        simp only [Except.bind_eq_ok, Except.pure_eq_ok, List.append_assoc]
        exact ⟨_, dv_enc he1 _, _, dv_enc he2 _, _, h3, rfl⟩

end Neqo.Frm
