import Verif.Tparams.Spec
import Verif.Frames.Write

/-! Reading and writing transport parameters. -/
namespace Neqo.Tp
open Neqo.Codec
open Neqo.Frm (IsVar Field Except.bind_eq_ok Except.pure_eq_ok)

theorem d_ok {α : Type} {x : Option α} {y : α} : d x = .ok y ↔ x = some y := by
  cases x <;> simp [d]

theorem frm_d_ok {α : Type} {x : Option α} {y : α} : Frm.d x = .ok y ↔ x = some y := by
  cases x <;> simp [Frm.d]

theorem var_ok {b r : Bytes} {v : Nat} : decodeVarint b = some (v, r) ↔ ∃ e, IsVar v e ∧ b = e ++ r :=
  ⟨Frm.var_dec, fun ⟨_, h, hb⟩ => hb ▸ Frm.var_enc h r⟩

theorem counted_ok {b x r : Bytes} : decodeVvec b = some (x, r) ↔ ∃ e, (Field.counted x).Is e ∧ b = e ++ r := by
  rw [← frm_d_ok, Frm.counted_ok]

theorem raw_ok {n : Nat} {b x r : Bytes} : decode n b = some (x, r) ↔ x.length = n ∧ b = x ++ r := by
  rw [← frm_d_ok, Frm.raw_ok]

theorem short_ok {b x r : Bytes} : decodeVec 1 b = some (x, r) ↔ ∃ e, (Field.short x).Is e ∧ b = e ++ r := by
  rw [← frm_d_ok, Frm.short_ok]

theorem uint_ok {n : Nat} {b r : Bytes} {v : Nat} (h0 : 0 < n) (h8 : n ≤ 8) :
    decodeN n b = some (v, r) ↔ ∃ e : Bytes, e.length = n ∧ beVal e = v ∧ b = e ++ r := by
  rw [decodeN_some]
  constructor
  · rintro ⟨_, _, h1, h2, h3⟩
    exact ⟨b.take n, by rw [List.length_take]; omega, h2.symm, by rw [h3, List.take_append_drop]⟩
  · rintro ⟨e, rfl, rfl, rfl⟩
    refine ⟨h0, h8, by simp, by simp, by simp⟩

theorem beVal_zero (n : Nat) : beVal (List.replicate n 0) = 0 := by
  induction n with
  | zero => rfl
  | succ n ih => rw [List.replicate_succ]; simp [beVal, ih]

theorem beVal_eq_zero {b : Bytes} (h : beVal b = 0) : b = List.replicate b.length 0 := by
  induction b with
  | nil => rfl
  | cons x xs ih =>
    rw [beVal] at h
    have hx : x.toNat * 256 ^ xs.length = 0 := by omega
    have h2 : beVal xs = 0 := by omega
    rw [List.length_cons, List.replicate_succ, ← ih h2]
    rcases Nat.mul_eq_zero.mp hx with hx | hx
    · congr 1
      exact UInt8.toNat_inj.mp hx
    · exact absurd hx (Nat.ne_of_gt (Nat.pow_pos (by decide)))

theorem addr_ok {n : Nat} {b r : Bytes} {a : Option (Bytes × Nat)} :
    decodeAddr n b = .ok (a, r) ↔ AddrValid n a ∧ ∃ x, AddrIs n a x ∧ b = x ++ r := by
  unfold decodeAddr
  simp only [Except.bind_eq_ok, Except.pure_eq_ok, d_ok]
  constructor
  · rintro ⟨⟨ip, b1⟩, h1, ⟨port, b2⟩, h2, h3⟩
    obtain ⟨hl, rfl⟩ := raw_ok.mp h1
    obtain ⟨e, he, hp, rfl⟩ := (uint_ok (by decide) (by decide)).mp h2
    simp only at h3
    split at h3
    · cases h3
    · rename_i hx
      have hx2 : decide (ip = List.replicate n 0) = decide (port = 0) := by simpa using hx
      split at h3
      · rename_i h0
        cases h3
        rw [decide_eq_true h0] at hx2
        refine ⟨trivial, ip ++ e, ?_, by simp⟩
        have he0 := beVal_eq_zero (hp.trans h0)
        rw [he] at he0
        show ip ++ e = List.replicate (n + 2) 0
        rw [of_decide_eq_true hx2, he0, List.replicate_append_replicate]
      · rename_i h0
        cases h3
        rw [decide_eq_false h0] at hx2
        refine ⟨⟨hl, of_decide_eq_false hx2, by omega, ?_⟩, ip ++ e, ⟨e, he, hp, rfl⟩, by simp⟩
        have := beVal_lt e
        rw [he] at this
        omega
  · rintro ⟨hv, x, hx, rfl⟩
    cases a with
    | none =>
      have hx : x = List.replicate (n + 2) 0 := hx
      subst hx
      rw [← List.replicate_append_replicate]
      refine ⟨_, raw_ok.mpr ⟨List.length_replicate, List.append_assoc _ _ _⟩, _, (uint_ok (by decide) (by decide)).mpr ⟨_, rfl, rfl, rfl⟩, ?_⟩
      simp only
      rw [if_neg (by simp [beVal]), if_pos (by rfl)]
      rfl
    | some p =>
      obtain ⟨ip, port⟩ := p
      obtain ⟨e, he, hp, rfl⟩ := hx
      obtain ⟨h1, h2, h3, h4⟩ := hv
      refine ⟨_, raw_ok.mpr ⟨h1, List.append_assoc _ _ _⟩, _, (uint_ok (by decide) (by decide)).mpr ⟨_, he, hp, rfl⟩, ?_⟩
      simp only
      rw [if_neg (by simp [h2]; omega), if_neg (by omega)]
      rfl

theorem preferred_ok {b : Bytes} {v : Value} :
    decodePreferred b = .ok (v, []) ↔ Valid .preferredAddress v ∧ Content v b := by
  unfold decodePreferred
  simp only [Except.bind_eq_ok, d_ok]
  constructor
  · rintro ⟨⟨v4, b1⟩, h1, ⟨v6, b2⟩, h2, h3⟩
    obtain ⟨hv4, x, hx, rfl⟩ := addr_ok.mp h1
    obtain ⟨hv6, y, hy, rfl⟩ := addr_ok.mp h2
    simp only at h3
    split at h3
    · cases h3
    · rename_i hn
      simp only [Except.bind_eq_ok, d_ok] at h3
      obtain ⟨⟨cid, b3⟩, h3, h4⟩ := h3
      obtain ⟨z, hz, rfl⟩ := short_ok.mp h3
      simp only at h4
      split at h4
      · cases h4
      · rename_i hc
        split at h4
        · cases h4
        · rename_i srt b4 h5
          obtain ⟨hl, rfl⟩ := raw_ok.mp h5
          cases h4
          refine ⟨⟨hv4, hv6, ?_, ?_, ?_, hl⟩, x, y, z, hx, hy, hz, by simp⟩
          · by_cases h : v4 = none
            · exact Or.inr (fun h' => hn ⟨h, h'⟩)
            · exact Or.inl h
          · cases cid with
            | nil => exact absurd (Or.inl rfl) hc
            | cons _ _ => simp
          · have : ¬ cid.length > maxCidLen := fun h => hc (Or.inr h)
            unfold maxCidLen at this
            omega
  · rintro ⟨hv, hc⟩
    cases v with
    | preferred v4 v6 cid srt =>
      obtain ⟨hv4, hv6, hn, h1, h2, h3⟩ := hv
      obtain ⟨x, y, z, hx, hy, hz, rfl⟩ := hc
      refine ⟨(v4, y ++ z ++ srt), addr_ok.mpr ⟨hv4, x, hx, by simp⟩, (v6, z ++ srt), addr_ok.mpr ⟨hv6, y, hy, by simp⟩, ?_⟩
      simp only
      rw [if_neg (by rintro ⟨a, b⟩; rcases hn with h | h; exact h a; exact h b)]
      simp only [Except.bind_eq_ok, d_ok]
      refine ⟨(cid, srt), short_ok.mpr ⟨z, hz, rfl⟩, ?_⟩
      simp only
      rw [if_neg (by
        rintro (h | h)
        · rw [h] at h1; simp at h1
        · unfold maxCidLen at h; omega)]
      rw [raw_ok.mpr ⟨h3, (List.append_nil srt).symm⟩]
      rfl
    | _ => exact absurd hv (by simp [Valid])

theorem version_ok {b r : Bytes} {v : Nat} :
    decodeVersion b = .ok (v, r) ↔ 0 < v ∧ ∃ x : Bytes, x.length = 4 ∧ beVal x = v ∧ b = x ++ r := by
  unfold decodeVersion
  simp only [Except.bind_eq_ok, d_ok]
  constructor
  · rintro ⟨⟨w, b1⟩, h1, h2⟩
    simp only at h2
    split at h2
    · cases h2
    · cases h2
      exact ⟨by omega, (uint_ok (by decide) (by decide)).mp h1⟩
  · rintro ⟨h0, h⟩
    refine ⟨_, (uint_ok (by decide) (by decide)).mpr h, ?_⟩
    simp only
    rw [if_neg (by omega)]
    rfl

theorem words_length {vs : List Nat} {b : Bytes} (h : WordsIs vs b) : b.length = 4 * vs.length := by
  induction vs generalizing b with
  | nil => rw [show b = [] from h]; rfl
  | cons v vs ih =>
    obtain ⟨x, y, hx, _, hy, rfl⟩ := h
    rw [List.length_append, ih hy, hx, List.length_cons]; omega

theorem versionList_ok {n : Nat} {b r : Bytes} {vs : List Nat} :
    decodeVersionList n b = .ok (vs, r) ↔ vs.length = n ∧ (∀ v ∈ vs, 0 < v) ∧ ∃ x, WordsIs vs x ∧ b = x ++ r := by
  induction n generalizing b vs with
  | zero =>
    unfold decodeVersionList
    constructor
    · intro h; cases h; exact ⟨rfl, (fun v h => by cases h), [], rfl, rfl⟩
    · rintro ⟨h1, _, x, hx, rfl⟩
      rw [List.eq_nil_of_length_eq_zero h1] at hx ⊢
      rw [show x = [] from hx]; rfl
  | succ n ih =>
    unfold decodeVersionList
    simp only [Except.bind_eq_ok, Except.pure_eq_ok]
    constructor
    · rintro ⟨⟨v, b1⟩, h1, ⟨ws, b2⟩, h2, h3⟩
      cases h3
      obtain ⟨h0, x, hx, hv, rfl⟩ := version_ok.mp h1
      obtain ⟨hl, hp, y, hy, hb⟩ := ih.mp h2
      simp only at hb
      refine ⟨by rw [List.length_cons, hl], ?_, x ++ y, ⟨x, y, hx, hv, hy, rfl⟩, by rw [hb, List.append_assoc]⟩
      intro w hw
      rcases List.mem_cons.mp hw with rfl | hw
      · exact h0
      · exact hp w hw
    · rintro ⟨hl, hp, x, hx, rfl⟩
      cases vs with
      | nil => simp at hl
      | cons v vs =>
        obtain ⟨y, z, hy, hv, hz, rfl⟩ := hx
        refine ⟨(v, z ++ r), version_ok.mpr ⟨hp v List.mem_cons_self, y, hy, hv, by simp⟩, (vs, r),
          ih.mpr ⟨by simpa using hl, fun w hw => hp w (List.mem_cons_of_mem _ hw), z, hz, rfl⟩, rfl⟩

theorem word_lt {x : Bytes} (h : x.length = 4) : beVal x < 2 ^ 32 := by
  have := beVal_lt x
  rw [h] at this
  exact this

theorem words_lt {vs : List Nat} {b : Bytes} (h : WordsIs vs b) : ∀ v ∈ vs, v < 2 ^ 32 := by
  induction vs generalizing b with
  | nil => intro v hv; cases hv
  | cons w vs ih =>
    obtain ⟨x, y, hx, hw, hy, rfl⟩ := h
    intro v hv
    rcases List.mem_cons.mp hv with rfl | hv
    · rw [← hw]; exact word_lt hx
    · exact ih hy v hv

theorem versions_ok {b : Bytes} {v : Value} :
    decodeVersions b = .ok (v, []) ↔ Valid .versionInformation v ∧ Content v b := by
  unfold decodeVersions
  simp only [Except.bind_eq_ok, Except.pure_eq_ok]
  constructor
  · rintro ⟨⟨c, b1⟩, h1, ⟨os, b2⟩, h2, h3⟩
    cases h3
    obtain ⟨h0, x, hx, hv, rfl⟩ := version_ok.mp h1
    obtain ⟨hl, hp, y, hy, hb⟩ := versionList_ok.mp h2
    simp only [List.append_nil] at hb
    subst hb
    have hw : WordsIs (c :: os) (x ++ b1) := ⟨x, b1, hx, hv, hy, rfl⟩
    refine ⟨?_, hw⟩
    intro w hm
    refine ⟨?_, words_lt hw w hm⟩
    rcases List.mem_cons.mp hm with rfl | hm
    · exact h0
    · exact hp w hm
  · rintro ⟨hv, hc⟩
    cases v with
    | versions c os =>
      obtain ⟨x, y, hx, hcv, hy, rfl⟩ := hc
      refine ⟨(c, y), version_ok.mpr ⟨(hv c List.mem_cons_self).1, x, hx, hcv, rfl⟩, (os, []), ?_, rfl⟩
      refine versionList_ok.mpr ⟨?_, fun w hw => (hv w (List.mem_cons_of_mem _ hw)).1, y, hy, by simp⟩
      show os.length = y.length / 4
      rw [words_length hy]; omega
    | _ => exact absurd hv (by simp [Valid])

theorem int_ok {p : Nat → Bool} {e : Err} {b : Bytes} {v : Value} :
    decodeInt p e b = .ok (v, []) ↔ ∃ n, v = .int n ∧ p n = true ∧ IsVar n b := by
  unfold decodeInt
  constructor
  · intro h
    split at h
    · rename_i n r h1
      split at h
      · rename_i hp
        cases h
        obtain ⟨x, hx, rfl⟩ := var_ok.mp h1
        exact ⟨n, rfl, hp, by simpa using hx⟩
      · cases h
    · cases h
  · rintro ⟨n, rfl, hp, hb⟩
    rw [var_ok.mpr ⟨b, hb, (List.append_nil b).symm⟩]
    simp only
    rw [if_pos hp]

/-- The integers that a parameter may have. -/
theorem int_value {i : PId} {p : Nat → Bool} {e : Err} {b : Bytes} {v : Value}
    (h : ∀ w, Valid i w ↔ ∃ n, w = .int n ∧ p n = true ∧ n < 2 ^ 62) :
    decodeInt p e b = .ok (v, []) ↔ Valid i v ∧ Content v b := by
  rw [int_ok, h]
  constructor
  · rintro ⟨n, rfl, hp, hb⟩; exact ⟨⟨n, rfl, hp, hb.lt⟩, hb⟩
  · rintro ⟨⟨n, rfl, hp, _⟩, hb⟩; exact ⟨n, rfl, hp, hb⟩

theorem value_ok {role : Role} {i : PId} {b : Bytes} {v : Value} :
    decodeValue role i b = .ok (v, []) ↔ Valid i v ∧ Content v b ∧ (serverOnly i → role = .client) := by
  have key : ∀ {x : Except Err (Value × Bytes)} (_ : x = .ok (v, []) ↔ Valid i v ∧ Content v b) (_ : ¬ serverOnly i),
      (x = .ok (v, []) ↔ Valid i v ∧ Content v b ∧ (serverOnly i → role = .client)) := by
    intro x h1 h2
    rw [h1]
    exact ⟨fun h => ⟨h.1, h.2, fun h => absurd h h2⟩, fun h => ⟨h.1, h.2.1⟩⟩
  have bs : ∀ {j : PId}, (∀ w, Valid j w ↔ ∃ x, w = .bytes x) →
      ((.ok (Value.bytes b, []) : Except Err (Value × Bytes)) = .ok (v, []) ↔ Valid j v ∧ Content v b) := by
    intro j h
    rw [h]
    constructor
    · intro h; cases h; exact ⟨⟨_, rfl⟩, rfl⟩
    · rintro ⟨⟨x, rfl⟩, hc⟩; rw [show b = x from hc]
  have em : ∀ {j : PId}, (∀ w, Valid j w ↔ w = .empty) →
      ((.ok (Value.empty, b) : Except Err (Value × Bytes)) = .ok (v, []) ↔ Valid j v ∧ Content v b) := by
    intro j h
    rw [h]
    constructor
    · intro h; cases h; exact ⟨rfl, rfl⟩
    · rintro ⟨rfl, hc⟩; rw [show b = [] from hc]
  cases i
  case originalDestinationCid =>
    unfold decodeValue
    cases role with
    | server => simp [serverOnly]
    | client =>
      simp only [reduceCtorEq, if_false]
      rw [bs (j := .originalDestinationCid) (by intro w; cases w <;> simp [Valid])]
      simp
  case retrySourceCid =>
    unfold decodeValue
    cases role with
    | server => simp [serverOnly]
    | client =>
      simp only [reduceCtorEq, if_false]
      rw [bs (j := .retrySourceCid) (by intro w; cases w <;> simp [Valid])]
      simp
  case initialSourceCid => exact key (bs (by intro w; cases w <;> simp [Valid])) (by simp [serverOnly])
  case statelessResetToken =>
    unfold decodeValue
    cases role with
    | server => simp [serverOnly]
    | client =>
      by_cases hl : b.length = 16
      · simp only [reduceCtorEq, false_or, hl, ne_eq, not_true, if_false]
        constructor
        · intro h; cases h; exact ⟨hl, rfl, by simp⟩
        · rintro ⟨h1, h2, _⟩
          cases v with
          | bytes x => rw [show b = x from h2]
          | _ => exact absurd h1 (by simp [Valid])
      · rw [if_pos (Or.inr hl)]
        constructor
        · intro h; cases h
        · rintro ⟨h1, h2, _⟩
          cases v with
          | bytes x =>
            have h2 : b = x := h2
            have h1 : x.length = 16 := h1
            rw [h2] at hl
            exact absurd h1 hl
          | _ => exact absurd h1 (by simp [Valid])
  case preferredAddress =>
    unfold decodeValue
    cases role with
    | server => simp [serverOnly]
    | client =>
      simp only [reduceCtorEq, if_false]
      rw [preferred_ok]
      simp
  case versionInformation => exact key versions_ok (by simp [serverOnly])
  case disableMigration => exact key (em (by intro w; cases w <;> simp [Valid])) (by simp [serverOnly])
  case greaseQuicBit => exact key (em (by intro w; cases w <;> simp [Valid])) (by simp [serverOnly])
  case scone => exact key (em (by intro w; cases w <;> simp [Valid])) (by simp [serverOnly])
  case resetStreamAt => exact key (em (by intro w; cases w <;> simp [Valid])) (by simp [serverOnly])
  all_goals
    refine key (int_value ?_) (by simp [serverOnly])
    intro w
    cases w <;> simp [Valid, minInitialPacketSize, Nat.shiftLeft_eq] <;> (try omega)

end Neqo.Tp
