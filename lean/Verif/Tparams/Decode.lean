import Verif.Tparams.Lemmas

/-! The set of transport parameters. -/
namespace Neqo.Tp
open Neqo.Codec
open Neqo.Frm (IsVar Field Except.bind_eq_ok Except.pure_eq_ok)

theorem mem_all (i : PId) : i ∈ PId.all := by cases i <;> decide

theorem code_inj {i j : PId} (h : i.code = j.code) : i = j := by
  revert h
  cases i <;> cases j <;> decide

theorem ofCode_some {n : Nat} {i : PId} : PId.ofCode n = some i ↔ i.code = n := by
  unfold PId.ofCode
  constructor
  · intro h
    have := List.find?_some h
    simpa using this
  · intro h
    cases hf : PId.all.find? (fun i => decide (i.code = n)) with
    | none =>
      have := List.find?_eq_none.mp hf i (mem_all i)
      simp [h] at this
    | some j =>
      have hj := List.find?_some hf
      have hj : j.code = n := by simpa using hj
      rw [code_inj (hj.trans h.symm)]

theorem ofCode_none {n : Nat} : PId.ofCode n = none ↔ ∀ i : PId, i.code ≠ n := by
  constructor
  · intro h i hi
    rw [ofCode_some.mpr hi] at h
    cases h
  · intro h
    cases hf : PId.ofCode n with
    | none => rfl
    | some j => exact absurd (ofCode_some.mp hf) (h j)

/-- What reading one parameter needs and gives. -/
theorem param_ok {role : Role} {b r : Bytes} {x : Option (PId × Value)} :
    decodeParam role b = .ok (x, r) ↔ ∃ n c y z, IsVar n y ∧ (Field.counted c).Is z ∧ b = y ++ z ++ r ∧
      ((x = none ∧ ∀ i : PId, i.code ≠ n) ∨
        ∃ i v, x = some (i, v) ∧ i.code = n ∧ Valid i v ∧ Content v c ∧ (serverOnly i → role = .client)) := by
  unfold decodeParam
  simp only [Except.bind_eq_ok, d_ok]
  constructor
  · rintro ⟨⟨n, b1⟩, h1, ⟨c, b2⟩, h2, h3⟩
    obtain ⟨y, hy, rfl⟩ := var_ok.mp h1
    obtain ⟨z, hz, rfl⟩ := counted_ok.mp h2
    simp only at h3
    split at h3
    · rename_i hn
      cases h3
      exact ⟨n, c, y, z, hy, hz, by simp, Or.inl ⟨rfl, ofCode_none.mp hn⟩⟩
    · rename_i i hi
      simp only [Except.bind_eq_ok] at h3
      obtain ⟨⟨v, s⟩, h4, h5⟩ := h3
      simp only at h5
      split at h5
      · cases h5
      · rename_i hs
        cases h5
        have hs : s = [] := List.eq_nil_of_length_eq_zero (by omega)
        subst hs
        obtain ⟨g1, g2, g3⟩ := value_ok.mp h4
        exact ⟨n, c, y, z, hy, hz, by simp, Or.inr ⟨i, v, rfl, ofCode_some.mp hi, g1, g2, g3⟩⟩
  · rintro ⟨n, c, y, z, hy, hz, rfl, h⟩
    refine ⟨(n, z ++ r), var_ok.mpr ⟨y, hy, by simp⟩, (c, r), counted_ok.mpr ⟨z, hz, rfl⟩, ?_⟩
    simp only
    rcases h with ⟨rfl, h⟩ | ⟨i, v, rfl, hi, h1, h2, h3⟩
    · rw [ofCode_none.mpr h]; rfl
    · rw [ofCode_some.mpr hi]
      simp only [Except.bind_eq_ok]
      refine ⟨(v, []), value_ok.mpr ⟨h1, h2, h3⟩, ?_⟩
      simp only
      rw [if_neg (by simp)]
      rfl

/-- How often an id occurs. -/
def occ (ps : List (Nat × Bytes)) (i : PId) : Nat := (ps.filter (fun x => decide (x.1 = PId.code i))).length

theorem occ_cons (n : Nat) (c : Bytes) (ps : List (Nat × Bytes)) (i : PId) :
    occ ((n, c) :: ps) i = (if n = i.code then 1 else 0) + occ ps i := by
  unfold occ
  rw [List.filter_cons]
  by_cases h : n = i.code
  · simp [h]; omega
  · simp [h]

theorem occ_zero {ps : List (Nat × Bytes)} {i : PId} (h : occ ps i = 0) : ∀ c, (i.code, c) ∉ ps := by
  intro c hc
  have := List.eq_nil_of_length_eq_zero h
  have h2 := List.filter_eq_nil_iff.mp this _ hc
  simp at h2

/-- What the loop does from the parameters that have been read. -/
def LoopOk (role : Role) (p q : Params) (b : Bytes) : Prop :=
  ∃ ps, Raw ps b ∧
    (∀ i c, (PId.code i, c) ∈ ps → ∃ v, q i = some v ∧ Valid i v ∧ Content v c ∧ (serverOnly i → role = .client)) ∧
    (∀ i, (p i).isSome → q i = p i) ∧
    (∀ i, occ ps i = if (p i).isSome then 0 else if (q i).isSome then 1 else 0)

theorem raw_nil {ps : List (Nat × Bytes)} (h : Raw ps []) : ps = [] := by
  cases ps with
  | nil => rfl
  | cons p ps =>
    obtain ⟨n, c⟩ := p
    obtain ⟨x, y, z, hx, _, _, h⟩ := h
    have := congrArg List.length h
    have h1 := List.length_pos_iff.mpr hx.ne_nil
    simp only [List.length_nil, List.length_append] at this
    omega

theorem loop_nil {role : Role} {p q : Params} : LoopOk role p q [] ↔ q = p := by
  constructor
  · rintro ⟨ps, h1, _, h3, h4⟩
    rw [raw_nil h1] at h4
    funext i
    by_cases hp : (p i).isSome
    · exact h3 i hp
    · have := h4 i
      rw [if_neg hp] at this
      have hq : (q i).isSome = false := by
        cases h : (q i).isSome with
        | false => rfl
        | true => rw [h] at this; simp [occ] at this
      rw [Option.isSome_eq_false_iff, Option.isNone_iff_eq_none] at hq
      have hp' : p i = none := by
        cases h : p i with
        | none => rfl
        | some v => rw [h] at hp; simp at hp
      rw [hq, hp']
  · rintro rfl
    refine ⟨[], rfl, (fun i c h => by cases h), fun _ _ => rfl, ?_⟩
    intro i
    cases (q i).isSome <;> rfl

theorem loop_ok {role : Role} {n : Nat} {p q : Params} {b : Bytes} (hn : b.length ≤ n) :
    decodeLoop role n p b = .ok q ↔ LoopOk role p q b := by
  induction n generalizing p b with
  | zero =>
    rw [List.eq_nil_of_length_eq_zero (show b.length = 0 by omega), loop_nil]
    unfold decodeLoop
    simp [eq_comm]
  | succ n ih =>
    unfold decodeLoop
    by_cases hb : b = []
    · rw [if_pos hb, hb, loop_nil]
      simp [eq_comm]
    · rw [if_neg hb]
      simp only [Except.bind_eq_ok]
      constructor
      · rintro ⟨⟨x, r⟩, h1, h2⟩
        obtain ⟨m, c, y, z, hy, hz, rfl, h3⟩ := param_ok.mp h1
        have hy1 := List.length_pos_iff.mpr hy.ne_nil
        simp only [List.length_append] at hn
        rcases h3 with ⟨rfl, hno⟩ | ⟨i, v, rfl, hi, g1, g2, g3⟩
        · simp only at h2
          obtain ⟨ps, k1, k2, k3, k4⟩ := (ih (by omega)).mp h2
          refine ⟨(m, c) :: ps, ⟨y, z, r, hy, hz, k1, rfl⟩, ?_, k3, ?_⟩
          · intro j cj hj
            rcases List.mem_cons.mp hj with h | h
            · exact absurd (Prod.mk.inj h).1 (hno j)
            · exact k2 j cj h
          · intro j
            rw [occ_cons, if_neg (fun h => hno j h.symm), Nat.zero_add]
            exact k4 j
        · simp only at h2
          split at h2
          · cases h2
          · rename_i hp
            obtain ⟨ps, k1, k2, k3, k4⟩ := (ih (by omega)).mp h2
            have hset : (p.set i v) i = some v := by unfold Params.set; rw [if_pos rfl]
            have hother : ∀ j, j ≠ i → (p.set i v) j = p j := by
              intro j hj; unfold Params.set; rw [if_neg hj]
            have hqi : q i = some v := (k3 i (by rw [hset]; rfl)).trans hset
            refine ⟨(m, c) :: ps, ⟨y, z, r, hy, hz, k1, rfl⟩, ?_, ?_, ?_⟩
            · intro j cj hj
              rcases List.mem_cons.mp hj with h | h
              · obtain ⟨h1', h2'⟩ := Prod.mk.inj h
                have hji : j = i := code_inj (h1'.trans hi.symm)
                subst hji
                subst h2'
                exact ⟨v, hqi, g1, g2, g3⟩
              · exact k2 j cj h
            · intro j hj
              have hji : j ≠ i := by rintro rfl; exact hp hj
              rw [← hother j hji]
              exact k3 j (by rw [hother j hji]; exact hj)
            · intro j
              rw [occ_cons]
              by_cases hji : j = i
              · subst hji
                rw [if_pos hi.symm, if_neg hp, hqi]
                have := k4 j
                rw [hset] at this
                simp only [Option.isSome_some, if_true] at this ⊢
                omega
              · rw [if_neg (fun h => hji (code_inj (h.symm.trans hi.symm))), Nat.zero_add, k4 j, hother j hji]
      · rintro ⟨ps, k1, k2, k3, k4⟩
        cases ps with
        | nil => exact absurd k1 hb
        | cons pc ps =>
          obtain ⟨m, c⟩ := pc
          obtain ⟨y, z, r, hy, hz, k1, rfl⟩ := k1
          have hy1 := List.length_pos_iff.mpr hy.ne_nil
          simp only [List.length_append] at hn
          by_cases hk : ∃ i : PId, i.code = m
          · obtain ⟨i, hi⟩ := hk
            obtain ⟨v, hv, g1, g2, g3⟩ := k2 i c (by rw [hi]; exact List.mem_cons_self)
            refine ⟨(some (i, v), r), param_ok.mpr ⟨m, c, y, z, hy, hz, rfl, Or.inr ⟨i, v, rfl, hi, g1, g2, g3⟩⟩, ?_⟩
            simp only
            have hki := k4 i
            rw [occ_cons, if_pos hi.symm] at hki
            have hp : ¬ (p i).isSome := by
              intro h
              rw [if_pos h] at hki
              omega
            rw [if_neg hp]
            rw [if_neg hp, hv] at hki
            simp only [Option.isSome_some, if_true] at hki
            have hset : (p.set i v) i = some v := by unfold Params.set; rw [if_pos rfl]
            have hother : ∀ j, j ≠ i → (p.set i v) j = p j := by
              intro j hj; unfold Params.set; rw [if_neg hj]
            refine (ih (by omega)).mpr ⟨ps, k1, fun j cj hj => k2 j cj (List.mem_cons_of_mem _ hj), ?_, ?_⟩
            · intro j hj
              by_cases hji : j = i
              · subst hji; rw [hset, hv]
              · rw [hother j hji] at hj ⊢
                exact k3 j hj
            · intro j
              by_cases hji : j = i
              · subst hji
                rw [hset]
                simp only [Option.isSome_some, if_true]
                omega
              · rw [hother j hji]
                have := k4 j
                rw [occ_cons, if_neg (fun h => hji (code_inj (h.symm.trans hi.symm))), Nat.zero_add] at this
                exact this
          · have hk' : ∀ i : PId, i.code ≠ m := fun i hi => hk ⟨i, hi⟩
            refine ⟨(none, r), param_ok.mpr ⟨m, c, y, z, hy, hz, rfl, Or.inl ⟨rfl, hk'⟩⟩, ?_⟩
            simp only
            refine (ih (by omega)).mpr ⟨ps, k1, fun j cj hj => k2 j cj (List.mem_cons_of_mem _ hj), k3, ?_⟩
            intro j
            have := k4 j
            rw [occ_cons, if_neg (fun h => hk' j h.symm), Nat.zero_add] at this
            exact this

theorem params_ok {role : Role} {b : Bytes} {p : Params} : decodeParams role b = .ok p ↔ Describes role p b := by
  unfold decodeParams
  rw [loop_ok (Nat.le_refl _)]
  constructor
  · rintro ⟨ps, h1, h2, _, h4⟩
    exact ⟨ps, h1, h2, fun i => by simpa [occ] using h4 i⟩
  · rintro ⟨ps, h1, h2, h4⟩
    exact ⟨ps, h1, h2, (fun i h => by cases h), fun i => by simpa [occ] using h4 i⟩

/-! Writing -/

theorem ev_ok {v : Nat} (h : v < 2 ^ 62) : ∃ e, ev v = .ok e ∧ IsVar v e := by
  obtain ⟨e, h1, h2, _⟩ := Frm.ev_ok h
  refine ⟨e, ?_, h2⟩
  unfold Frm.ev at h1
  unfold ev
  cases he : encodeVarint v with
  | none => rw [he] at h1; cases h1
  | some x => rw [he] at h1; cases h1; rfl

theorem evv_ok {b : Bytes} (h : b.length < 2 ^ 62) : ∃ e, evv b = .ok e ∧ (Field.counted b).Is e := by
  obtain ⟨l, h1, _, h3⟩ := Frm.evv_ok h
  refine ⟨l ++ b, ?_, l, h1, rfl⟩
  unfold Frm.evv at h3
  unfold evv
  cases he : encodeVvec b with
  | none => rw [he] at h3; cases h3
  | some x => rw [he] at h3; cases h3; rfl

theorem uint_is {n v : Nat} (h : v < 256 ^ n) : (uintBytes n v).length = n ∧ beVal (uintBytes n v) = v := by
  unfold uintBytes
  refine ⟨beBytes_length n v, ?_⟩
  rw [beVal_beBytes, Nat.mod_eq_of_lt h]

theorem words_is {vs : List Nat} (h : ∀ v ∈ vs, v < 2 ^ 32) : WordsIs vs (vs.flatMap (uintBytes 4)) := by
  induction vs with
  | nil => rfl
  | cons v vs ih =>
    obtain ⟨h1, h2⟩ := uint_is (n := 4) (h v List.mem_cons_self)
    exact ⟨_, _, h1, h2, ih (fun w hw => h w (List.mem_cons_of_mem _ hw)), rfl⟩

theorem addr_is {n : Nat} {a : Option (Bytes × Nat)} (h : AddrValid n a) :
    AddrIs n a (addrBytes n a) ∧ (addrBytes n a).length = n + 2 := by
  cases a with
  | none => exact ⟨rfl, by simp [addrBytes]⟩
  | some p =>
    obtain ⟨ip, port⟩ := p
    obtain ⟨h1, _, _, h4⟩ := h
    obtain ⟨g1, g2⟩ := uint_is (n := 2) (v := port) h4
    refine ⟨⟨_, g1, g2, rfl⟩, ?_⟩
    unfold addrBytes
    rw [List.length_append, g1, h1]

theorem valid_int {i : PId} {n : Nat} (h : Valid i (.int n)) : n < 2 ^ 62 := by
  cases i <;> simp only [Valid] at h <;> omega

theorem content_ok {i : PId} {v : Value} (h : Valid i v) (hs : v.Short) :
    ∃ c, v.content = .ok c ∧ Content v c ∧ c.length < 2 ^ 62 := by
  cases v with
  | bytes b => exact ⟨b, rfl, rfl, hs⟩
  | int n =>
    obtain ⟨e, h1, h2⟩ := ev_ok (valid_int h)
    have := h2.length_le
    exact ⟨e, h1, h2, by omega⟩
  | empty => exact ⟨[], rfl, rfl, by simp⟩
  | preferred v4 v6 cid srt =>
    have hv : AddrValid 4 v4 ∧ AddrValid 16 v6 ∧ (v4 ≠ none ∨ v6 ≠ none) ∧ 1 ≤ cid.length ∧ cid.length ≤ 20 ∧ srt.length = 16 := by
      cases i <;> first | exact h | exact absurd h (by simp [Valid])
    obtain ⟨h1, h2, _, _, h5, h6⟩ := hv
    obtain ⟨l, hl, he⟩ := Frm.encodeVec_one (b := cid) (by omega)
    obtain ⟨a1, a2⟩ := addr_is h1
    obtain ⟨b1, b2⟩ := addr_is h2
    refine ⟨addrBytes 4 v4 ++ addrBytes 16 v6 ++ (l :: cid) ++ srt, ?_, ⟨_, _, _, a1, b1, ⟨l, hl, rfl⟩, rfl⟩, ?_⟩
    · simp only [Value.content, he]
    · simp only [List.length_append, List.length_cons, a2, b2]
      omega
  | versions c os =>
    have hv : ∀ v ∈ c :: os, 0 < v ∧ v < 2 ^ 32 := by
      cases i <;> first | exact h | exact absurd h (by simp [Valid])
    have hw := words_is (vs := c :: os) (fun v hm => (hv v hm).2)
    refine ⟨_, rfl, hw, ?_⟩
    have := words_length hw
    have hs' : 4 * (os.length + 1) < 2 ^ 62 := hs
    rw [List.length_cons] at this
    have e : (uintBytes 4 c ++ os.flatMap (uintBytes 4)).length = ((c :: os).flatMap (uintBytes 4)).length := rfl
    omega

theorem code_small (i : PId) : i.code < 2 ^ 62 := by cases i <;> decide

theorem encodeList_ok {p : Params} {is : List PId} (hv : ∀ i v, p i = some v → Valid i v ∧ v.Short) :
    ∃ b ps, encodeList p is = .ok b ∧ Raw ps b ∧
      (∀ n c, (n, c) ∈ ps → ∃ i v, i ∈ is ∧ i.code = n ∧ p i = some v ∧ Content v c) ∧
      (∀ i, occ ps i = if (p i).isSome then is.count i else 0) := by
  induction is with
  | nil => exact ⟨[], [], rfl, rfl, (fun n c h => by cases h), fun i => by simp [occ]⟩
  | cons i is ih =>
    obtain ⟨b, ps, h1, h2, h3, h4⟩ := ih
    unfold encodeList
    simp only [h1]
    cases hp : p i with
    | none =>
      refine ⟨b, ps, rfl, h2, ?_, ?_⟩
      · intro n c hc
        obtain ⟨j, v, hj, g⟩ := h3 n c hc
        exact ⟨j, v, List.mem_cons_of_mem _ hj, g⟩
      · intro j
        rw [h4 j]
        by_cases hj : (p j).isSome
        · have hji : i ≠ j := by rintro rfl; rw [hp] at hj; cases hj
          rw [if_pos hj, if_pos hj, List.count_cons_of_ne hji]
        · rw [if_neg hj, if_neg hj]
    | some v =>
      obtain ⟨hv1, hv2⟩ := hv i v hp
      obtain ⟨c, c1, c2, c3⟩ := content_ok hv1 hv2
      obtain ⟨t, t1, t2⟩ := ev_ok (code_small i)
      obtain ⟨e, e1, e2⟩ := evv_ok c3
      have he : v.encode i = .ok (t ++ e) := by
        unfold Value.encode
        rw [t1, c1]
        simp only [bind, Except.bind, e1]
        rfl
      refine ⟨t ++ e ++ b, (i.code, c) :: ps, by simp only [he]; rfl, ⟨t, e, b, t2, e2, h2, rfl⟩, ?_, ?_⟩
      · intro n c' hc
        rcases List.mem_cons.mp hc with h | h
        · cases h
          exact ⟨i, v, List.mem_cons_self, rfl, hp, c2⟩
        · obtain ⟨j, w, hj, g⟩ := h3 n c' h
          exact ⟨j, w, List.mem_cons_of_mem _ hj, g⟩
      · intro j
        rw [occ_cons, h4 j]
        by_cases hji : j = i
        · subst hji
          rw [if_pos rfl, hp]
          simp only [Option.isSome_some, if_true, List.count_cons_self]
          omega
        · rw [if_neg (fun h => hji (code_inj h.symm)), Nat.zero_add, List.count_cons_of_ne (fun h => hji h.symm)]

theorem count_all (i : PId) : PId.all.count i = 1 := by cases i <;> decide

theorem encode_ok {role : Role} {f : PId → Bool} {p : Params} (hv : ∀ i v, p i = some v → Valid i v ∧ v.Short)
    (hr : ∀ i, (p i).isSome → f i → serverOnly i → role = .client) :
    ∃ b, encodeParams f p = .ok b ∧ Describes role (fun i => if f i then p i else none) b := by
  obtain ⟨b, ps, h1, h2, h3, h4⟩ := encodeList_ok (is := PId.all.filter f) hv
  refine ⟨b, h1, ps, h2, ?_, ?_⟩
  · intro i c hc
    obtain ⟨j, v, hj, hji, hp, hcv⟩ := h3 _ _ hc
    have := code_inj hji
    subst this
    have hf : f j = true := (List.mem_filter.mp hj).2
    refine ⟨v, by simp only [hf, if_true]; exact hp, (hv j v hp).1, hcv, ?_⟩
    intro hs
    exact hr j (by rw [hp]; rfl) hf hs
  · intro i
    show occ ps i = _
    rw [h4 i]
    by_cases hf : f i = true
    · simp only [hf, if_true]
      have : (PId.all.filter f).count i = 1 := by rw [List.count_filter hf, count_all]
      rw [this]
    · have : (PId.all.filter f).count i = 0 := by
        rw [List.count_eq_zero]
        intro h
        exact hf (List.mem_filter.mp h).2
      rw [this]
      simp [hf]

end Neqo.Tp
