import Verif.Qpack.Lit

/-! # Encodings are unambiguous -/
namespace Neqo.Qp
open Neqo.Codec Spec

theorem cont_unique {m n : Nat} {x y r q : Bytes} (hx : ContIs m x) (hy : ContIs n y) (h : x ++ r = y ++ q) :
    m = n ∧ x = y := by
  induction x generalizing y m n with
  | nil => exact hx.elim
  | cons a x ih =>
    cases y with
    | nil => exact hy.elim
    | cons b y =>
      have h : a :: (x ++ r) = b :: (y ++ q) := h
      obtain ⟨rfl, h'⟩ := List.cons.inj h
      rcases hx with ⟨h1, rfl, rfl⟩ | ⟨h1, m', h2, rfl⟩
      · rcases hy with ⟨h3, rfl, rfl⟩ | ⟨h3, _⟩
        · exact ⟨rfl, rfl⟩
        · omega
      · rcases hy with ⟨h3, _⟩ | ⟨h3, n', h4, rfl⟩
        · omega
        · obtain ⟨rfl, rfl⟩ := ih h2 h4 h'
          exact ⟨rfl, rfl⟩

theorem int_unique {len m n : Nat} {x y r q : Bytes} (hx : IntIs len m x) (hy : IntIs len n y) (h : x ++ r = y ++ q) :
    m = n ∧ x = y := by
  cases x with
  | nil => exact hx.elim
  | cons a x =>
    cases y with
    | nil => exact hy.elim
    | cons b y =>
      have h : a :: (x ++ r) = b :: (y ++ q) := h
      obtain ⟨rfl, h'⟩ := List.cons.inj h
      rcases hx with ⟨h1, h2, rfl⟩ | ⟨h1, m', h2, rfl⟩
      · rcases hy with ⟨h3, h4, rfl⟩ | ⟨h3, _⟩
        · exact ⟨by omega, rfl⟩
        · omega
      · rcases hy with ⟨h3, h4, _⟩ | ⟨h3, n', h4, rfl⟩
        · omega
        · obtain ⟨rfl, rfl⟩ := cont_unique h2 h4 h'
          exact ⟨rfl, rfl⟩

theorem read_complete {bs : Bytes} {v i m : Nat} {rest : Bytes} {r : IntR} (hi : i ≤ 9) (hv : v < 2 ^ (7 * i) + 255)
    (hc : ContIs m bs) : IntR.read ⟨v, 7 * i, false⟩ (bs ++ rest) ≠ .more r := by
  induction bs generalizing v i m with
  | nil => exact hc.elim
  | cons b bs ih =>
    have hb := b.toNat_lt
    rw [List.cons_append]
    by_cases h9 : i = 9
    · subst h9
      rw [read_last hv]
      split <;> simp
    · rw [read_step (by omega) hv]
      rcases hc with ⟨h1, rfl, rfl⟩ | ⟨h1, m', h2, rfl⟩
      · rw [read_fin (by simpa using h1)]; simp
      · rw [decide_eq_false (by omega)]
        refine ih (by omega) ?_ h2
        have hp : 2 ^ (7 * (i + 1)) = 2 ^ (7 * i) * 128 := by rw [Nat.mul_add, pow_add]; norm_num
        have : b.toNat % 128 * 2 ^ (7 * i) ≤ 127 * 2 ^ (7 * i) := Nat.mul_le_mul_right _ (by omega)
        omega

/-- The reader of an integer comes to an end with its last byte. -/
theorem int_complete {b : UInt8} {pre rest : Bytes} {len n : Nat} {r : IntR} (hl : len < 8) (h : IntIs len n (b :: pre)) :
    (IntR.new b len).read (pre ++ rest) ≠ .more r := by
  have hb := b.toNat_lt
  have hk : 0 < 2 ^ (8 - len) := Nat.pow_pos (by omega)
  have h256 := pow_le_256 (len := len)
  have hm : b.toNat % 2 ^ (8 - len) < 2 ^ (8 - len) := Nat.mod_lt _ hk
  unfold IntR.new
  rw [and_firstMax len _ hl, firstMax_eq len hl]
  rcases h with ⟨h1, h2, rfl⟩ | ⟨h1, m, h2, rfl⟩
  · rw [read_fin (by simp only [decide_eq_true_eq]; omega)]; simp
  · rw [decide_eq_false (by omega)]
    exact read_complete (i := 0) (by omega) (by rw [h1]; omega) h2

theorem code_all {c : UInt8} {x : List Bool} {k : Nat} (hk : k < 8) : code c.toNat ++ x ≠ List.replicate k true := by
  intro h
  have hc : c.toNat < 257 := by have := c.toNat_lt; omega
  have h1 := walk_code hc x
  rw [h, walk_pad hk] at h1
  cases h1

/-- The codes of two strings, followed by something that is not another code. -/
theorem codes_unique {s s' : Bytes} {x y : List Bool}
    (hx : ∀ (c : UInt8) z, x ≠ code c.toNat ++ z) (hy : ∀ (c : UInt8) z, y ≠ code c.toNat ++ z)
    (h : codes s ++ x = codes s' ++ y) : s = s' ∧ x = y := by
  have e : ∀ (c : UInt8) cs, codes (c :: cs) = code c.toNat ++ codes cs := fun c cs => by simp [codes]
  induction s generalizing s' with
  | nil =>
    cases s' with
    | nil => exact ⟨rfl, h⟩
    | cons c cs =>
      exact absurd (show x = code c.toNat ++ (codes cs ++ y) by rw [← List.append_assoc, ← e]; exact h) (hx c _)
  | cons c cs ih =>
    cases s' with
    | nil =>
      exact absurd (show y = code c.toNat ++ (codes cs ++ x) by rw [← List.append_assoc, ← e]; exact h.symm) (hy c _)
    | cons d ds =>
      rw [e, e, List.append_assoc, List.append_assoc] at h
      have hc : c.toNat < 257 := by have := c.toNat_lt; omega
      have hd : d.toNat < 257 := by have := d.toNat_lt; omega
      have h1 := walk_code hc (codes cs ++ x)
      rw [h, walk_code hd] at h1
      obtain ⟨h2, h3⟩ := Prod.mk.inj (Option.some.inj h1)
      obtain ⟨rfl, h4⟩ := ih h3.symm
      exact ⟨by rw [UInt8.toNat_inj.mp h2], h4⟩

theorem pad_no_code {k : Nat} (hk : k < 8) (c : UInt8) (z : List Bool) : List.replicate k true ≠ code c.toNat ++ z :=
  fun h => code_all hk h.symm

theorem eos_no_code (t : List Bool) (c : UInt8) (z : List Bool) : code 256 ++ t ≠ code c.toNat ++ z := by
  intro h
  have hc := c.toNat_lt
  have h1 := walk_code (c := 256) (by omega) t
  rw [h, walk_code (by omega)] at h1
  have := (Prod.mk.inj (Option.some.inj h1)).1
  omega

/-- A part of a code does not begin with a code. -/
theorem part_no_code {a : Nat} {p t : List Bool} (ha : a < 257) (ht : t ≠ []) (h : code a = p ++ t) (c : UInt8) (z : List Bool) :
    p ≠ code c.toNat ++ z := by
  rintro rfl
  have hc := c.toNat_lt
  have h1 := walk_code ha []
  rw [h, List.append_nil, List.append_assoc, walk_code (by omega)] at h1
  have h2 := (Prod.mk.inj (Option.some.inj h1)).2
  exact ht (List.append_eq_nil_iff.mp h2).2

end Neqo.Qp
