import Verif.Qpack.Header
import Verif.Qpack.Lookup
import Verif.Qpack.InstrL

/-! # Header blocks are read as they were written -/
namespace Neqo.Qp
open Neqo.Codec Spec

theorem bufInt_of {p : Prefix} (hp : p.Ok) {n : Nat} (hn : n < 2 ^ 64) (rest : Bytes) :
    bufInt p.len (encodeInt p n ++ rest) = .ok (n, rest) := by
  obtain ⟨h1, h2, -⟩ := encode_int_ok hp hn
  exact (bufInt_iff hp.len_lt).mpr ⟨_, rfl, h1, hn, h2⟩

theorem bufLit_of {huff : Bool} {p : Prefix} (hp : p.LitOk) {s : Bytes} (hs : Short huff s) :
    ∃ b y, encodeLiteral huff p s = .ok (b :: y) ∧ topBits p.len b.toNat = topBits p.len p.pre ∧
      ∀ rest, bufLiteral p.len (b :: y ++ rest) = .ok (s, rest) := by
  obtain ⟨b, i, e, h1, h2, h3, h4, h5, -, h6⟩ := encode_lit_ok (huff := huff) hp hs.lt
  refine ⟨b, i ++ e, by simpa using h1, h5, fun rest => ?_⟩
  exact (bufLiteral_iff hp.len_lt).mpr ⟨b, i, e, by simp, h2, h3, le_trans h6 hs, h4⟩

/-! ## The first byte of a field -/

def cmpN (p : Prefix) (b : Nat) : Bool := decide (b &&& p.mask = p.pre)

theorem field_prefix1 : ∀ b < 256, (b / 64 = 3 → cmpN headerFieldIndexStatic b = true) ∧
    (b / 64 = 2 → cmpN headerFieldIndexStatic b = false ∧ cmpN headerFieldIndexDynamic b = true) ∧
    (b / 16 = 1 → cmpN headerFieldIndexStatic b = false ∧ cmpN headerFieldIndexDynamic b = false ∧
      cmpN headerFieldIndexDynamicPost b = true) := by decide +kernel

theorem field_prefix2 : ∀ b < 256, (b / 16 = 5 → cmpN headerFieldIndexStatic b = false ∧ cmpN headerFieldIndexDynamic b = false ∧
      cmpN headerFieldIndexDynamicPost b = false ∧ cmpN headerFieldLiteralNameRefStatic b = true) ∧
    (b / 16 = 4 → cmpN headerFieldIndexStatic b = false ∧ cmpN headerFieldIndexDynamic b = false ∧
      cmpN headerFieldIndexDynamicPost b = false ∧ cmpN headerFieldLiteralNameRefStatic b = false ∧
      cmpN headerFieldLiteralNameRefDynamic b = true) := by decide +kernel

theorem field_prefix3 : ∀ b < 256, (b / 16 = 2 → cmpN headerFieldIndexStatic b = false ∧ cmpN headerFieldIndexDynamic b = false ∧
      cmpN headerFieldIndexDynamicPost b = false ∧ cmpN headerFieldLiteralNameRefStatic b = false ∧
      cmpN headerFieldLiteralNameRefDynamic b = false ∧ cmpN headerFieldLiteralNameLiteral b = true) ∧
    (b / 8 = 0 → cmpN headerFieldIndexStatic b = false ∧ cmpN headerFieldIndexDynamic b = false ∧
      cmpN headerFieldIndexDynamicPost b = false ∧ cmpN headerFieldLiteralNameRefStatic b = false ∧
      cmpN headerFieldLiteralNameRefDynamic b = false ∧ cmpN headerFieldLiteralNameLiteral b = false ∧
      cmpN headerFieldLiteralNameRefDynamicPost b = true) := by decide +kernel

theorem cmp_eq (p : Prefix) (b : UInt8) : p.cmp b = cmpN p b.toNat := rfl

theorem first_of {p : Prefix} (hp : p.Ok) {n : Nat} (hn : n < 2 ^ 64) :
    ∃ b x, encodeInt p n = b :: x ∧ topBits p.len b.toNat = topBits p.len p.pre := by
  obtain ⟨-, -, b, x, h3, h4, -⟩ := encode_int_ok hp hn
  exact ⟨b, x, h3, h4⟩

/-! ## Fields -/

theorem do_ok {α β : Type} {a : α} {f : α → Except Err β} : ((Except.ok a : Except Err α) >>= f) = f a := rfl

theorem dyn_of {d : HDec} (hw : d.table.WF) (hb : d.table.base < 2 ^ 62) (hd : d.base < 2 ^ 62) {i : Nat} {e : DEntry}
    (he : d.table.at i = some e) (hr : i < d.req) {j : Nat} {post : Bool}
    (hj : if post then i = d.base + j else i + j + 1 = d.base) : d.entry j post = .ok e := by
  have h1 : d.table.getDynamic j d.base post = .ok e := by
    refine (getDynamic_ok hw (by omega)).mpr ⟨?_, i, hj, he⟩
    cases post
    · right; simp at hj; omega
    · left; rfl
  have h2 := (at_some he).2
  unfold HDec.entry
  rw [h1, do_ok, if_neg (by omega)]
  rfl

theorem static_utf8 : staticTable.all (fun e => utf8 e.name) = true := by decide +kernel

theorem getStatic_of {i : Nat} {e : SEntry} (h : staticTable[i]? = some e) : getStatic i = .ok e := by
  unfold getStatic; rw [h]

theorem fieldOf_static {i : Nat} {e : SEntry} (h : staticTable[i]? = some e) (v : Bytes) : fieldOf e.name v = .ok (e.name, v) := by
  have := List.all_eq_true.mp static_utf8 e (List.mem_of_getElem? h)
  unfold fieldOf
  rw [if_pos this]

theorem fieldOf_of {n : Bytes} (h : utf8 n = true) (v : Bytes) : fieldOf n v = .ok (n, v) := by
  unfold fieldOf; rw [if_pos h]

theorem read_indexed_static {d : HDec} {i : Nat} {e : SEntry} (h : staticTable[i]? = some e) (hi : i < 2 ^ 64) (rest : Bytes) :
    d.readField (encodeInt headerFieldIndexStatic i ++ rest) = .ok ((e.name, e.value), rest) := by
  have hp : headerFieldIndexStatic.Ok := by constructor <;> decide
  have hr := bufInt_of hp hi rest
  obtain ⟨b, x, h1, h2⟩ := first_of hp hi
  rw [h1] at hr ⊢
  have h2 : b.toNat / 64 = 3 := h2
  have hc := (field_prefix1 b.toNat b.toNat_lt).1 h2
  rw [List.cons_append] at hr ⊢
  unfold HDec.readField
  simp only [cmp_eq, hc, if_true]
  unfold readIndexedStatic
  rw [hr, do_ok]
  simp only
  rw [getStatic_of h, do_ok, fieldOf_static h, do_ok]
  rfl

theorem read_indexed {d : HDec} (hw : d.table.WF) (hb : d.table.base < 2 ^ 62) (hd : d.base < 2 ^ 62) {i : Nat} {e : DEntry}
    (he : d.table.at i = some e) (hr : i < d.req) (hu : utf8 e.name = true) (hi : i < 2 ^ 62) (rest : Bytes) :
    d.readField ((if i < d.base then encodeInt headerFieldIndexDynamic (d.base - i - 1)
      else encodeInt headerFieldIndexDynamicPost (i - d.base)) ++ rest) = .ok ((e.name, e.value), rest) := by
  split
  · have hp : headerFieldIndexDynamic.Ok := by constructor <;> decide
    have hn : d.base - i - 1 < 2 ^ 64 := by omega
    have hr' := bufInt_of hp hn rest
    obtain ⟨b, x, h1, h2⟩ := first_of hp hn
    rw [h1] at hr' ⊢
    have h2 : b.toNat / 64 = 2 := h2
    obtain ⟨c1, c2⟩ := (field_prefix1 b.toNat b.toNat_lt).2.1 h2
    rw [List.cons_append] at hr' ⊢
    unfold HDec.readField
    simp only [cmp_eq, c1, c2, Bool.false_eq_true, if_false, if_true]
    unfold HDec.readIndexed
    simp only [Bool.false_eq_true, if_false]
    rw [hr', do_ok]
    simp only
    rw [dyn_of hw hb hd he hr (post := false) (by simp; omega), do_ok, fieldOf_of hu, do_ok]
    rfl
  · have hp : headerFieldIndexDynamicPost.Ok := by constructor <;> decide
    have hn : i - d.base < 2 ^ 64 := by omega
    have hr' := bufInt_of hp hn rest
    obtain ⟨b, x, h1, h2⟩ := first_of hp hn
    rw [h1] at hr' ⊢
    have h2 : b.toNat / 16 = 1 := h2
    obtain ⟨c1, c2, c3⟩ := (field_prefix1 b.toNat b.toNat_lt).2.2 h2
    rw [List.cons_append] at hr' ⊢
    unfold HDec.readField
    simp only [cmp_eq, c1, c2, c3, Bool.false_eq_true, if_false, if_true]
    unfold HDec.readIndexed
    simp only [if_true]
    rw [hr', do_ok]
    simp only
    rw [dyn_of hw hb hd he hr (post := true) (by simp; omega), do_ok, fieldOf_of hu, do_ok]
    rfl

theorem lit_of {huff : Bool} {v : Bytes} (hs : Short huff v) :
    ∃ y, encodeLiteral huff noPrefix v = .ok y ∧ ∀ rest, bufLiteral 0 (y ++ rest) = .ok (v, rest) := by
  obtain ⟨b, y, h1, -, h3⟩ := bufLit_of (huff := huff) (p := noPrefix) (by constructor <;> decide) hs
  exact ⟨_, h1, h3⟩

theorem read_ref_static {d : HDec} {i : Nat} {e : SEntry} (h : staticTable[i]? = some e) (hi : i < 2 ^ 64) {y v : Bytes}
    (hy : ∀ rest, bufLiteral 0 (y ++ rest) = .ok (v, rest)) (rest : Bytes) :
    d.readField (encodeInt headerFieldLiteralNameRefStatic i ++ y ++ rest) = .ok ((e.name, v), rest) := by
  have hp : headerFieldLiteralNameRefStatic.Ok := by constructor <;> decide
  have hr := bufInt_of hp hi (y ++ rest)
  obtain ⟨b, x, h1, h2⟩ := first_of hp hi
  rw [List.append_assoc]
  rw [h1] at hr ⊢
  have h2 : b.toNat / 16 = 5 := h2
  obtain ⟨c1, c2, c3, c4⟩ := (field_prefix2 b.toNat b.toNat_lt).1 h2
  rw [List.cons_append] at hr ⊢
  unfold HDec.readField
  simp only [cmp_eq, c1, c2, c3, c4, Bool.false_eq_true, if_false, if_true]
  unfold readRefStatic
  rw [hr, do_ok]
  simp only
  rw [getStatic_of h, do_ok, hy, do_ok]
  simp only
  rw [fieldOf_static h, do_ok]
  rfl

theorem read_ref {d : HDec} (hw : d.table.WF) (hb : d.table.base < 2 ^ 62) (hd : d.base < 2 ^ 62) {i : Nat} {e : DEntry}
    (he : d.table.at i = some e) (hr : i < d.req) (hu : utf8 e.name = true) (hi : i < 2 ^ 62) {y v : Bytes}
    (hy : ∀ rest, bufLiteral 0 (y ++ rest) = .ok (v, rest)) (rest : Bytes) :
    d.readField ((if i < d.base then encodeInt headerFieldLiteralNameRefDynamic (d.base - i - 1)
      else encodeInt headerFieldLiteralNameRefDynamicPost (i - d.base)) ++ y ++ rest) = .ok ((e.name, v), rest) := by
  rw [List.append_assoc]
  split
  · have hp : headerFieldLiteralNameRefDynamic.Ok := by constructor <;> decide
    have hn : d.base - i - 1 < 2 ^ 64 := by omega
    have hr' := bufInt_of hp hn (y ++ rest)
    obtain ⟨b, x, h1, h2⟩ := first_of hp hn
    rw [h1] at hr' ⊢
    have h2 : b.toNat / 16 = 4 := h2
    obtain ⟨c1, c2, c3, c4, c5⟩ := (field_prefix2 b.toNat b.toNat_lt).2 h2
    rw [List.cons_append] at hr' ⊢
    unfold HDec.readField
    simp only [cmp_eq, c1, c2, c3, c4, c5, Bool.false_eq_true, if_false, if_true]
    unfold HDec.readRef
    simp only [Bool.false_eq_true, if_false]
    rw [hr', do_ok]
    simp only
    rw [dyn_of hw hb hd he hr (post := false) (by simp; omega), do_ok, hy, do_ok]
    simp only
    rw [fieldOf_of hu, do_ok]
    rfl
  · have hp : headerFieldLiteralNameRefDynamicPost.Ok := by constructor <;> decide
    have hn : i - d.base < 2 ^ 64 := by omega
    have hr' := bufInt_of hp hn (y ++ rest)
    obtain ⟨b, x, h1, h2⟩ := first_of hp hn
    rw [h1] at hr' ⊢
    have h2 : b.toNat / 8 = 0 := h2
    obtain ⟨c1, c2, c3, c4, c5, c6, c7⟩ := (field_prefix3 b.toNat b.toNat_lt).2 h2
    rw [List.cons_append] at hr' ⊢
    unfold HDec.readField
    simp only [cmp_eq, c1, c2, c3, c4, c5, c6, c7, Bool.false_eq_true, if_false, if_true]
    unfold HDec.readRef
    simp only [if_true]
    rw [hr', do_ok]
    simp only
    rw [dyn_of hw hb hd he hr (post := true) (by simp; omega), do_ok, hy, do_ok]
    simp only
    rw [fieldOf_of hu, do_ok]
    rfl

theorem read_lit_lit {d : HDec} {huff : Bool} {n : Bytes} (hn : Short huff n) (hu : utf8 n = true) :
    ∃ b x, encodeLiteral huff headerFieldLiteralNameLiteral n = .ok (b :: x) ∧
      ∀ {y v : Bytes}, (∀ rest, bufLiteral 0 (y ++ rest) = .ok (v, rest)) → ∀ rest,
        d.readField (b :: x ++ y ++ rest) = .ok ((n, v), rest) := by
  obtain ⟨b, x, h1, h2, h3⟩ := bufLit_of (huff := huff) (p := headerFieldLiteralNameLiteral) (by constructor <;> decide) hn
  refine ⟨b, x, h1, fun {y v} hy rest => ?_⟩
  have h2 : b.toNat / 16 = 2 := h2
  obtain ⟨c1, c2, c3, c4, c5, c6⟩ := (field_prefix3 b.toNat b.toNat_lt).1 h2
  have hr := h3 (y ++ rest)
  rw [List.append_assoc]
  rw [List.cons_append] at hr ⊢
  unfold HDec.readField
  simp only [cmp_eq, c1, c2, c3, c4, c5, c6, Bool.false_eq_true, if_false, if_true]
  unfold readLitLit
  rw [hr, do_ok]
  simp only
  rw [hy, do_ok]
  simp only
  rw [fieldOf_of hu, do_ok]
  rfl

/-! ## Lists of fields -/

/-- What fields count for in the limit on a block. -/
def listSize (fs : List Field) : Nat := (fs.map (fun f => f.1.length + f.2.length + 32)).sum

theorem listSize_append (a b : List Field) : listSize (a ++ b) = listSize a + listSize b := by simp [listSize]

/-- A table has an entry with this index and this field. -/
def Table.Has (t : Table) (x : Nat × Field) : Prop := ∃ e, t.at x.1 = some e ∧ (e.name, e.value) = x.2

/-- Bytes of a block are these fields, for any decoder that has the entries that the block needs. -/
def Decodes (buf : Bytes) (base : Nat) (need : List (Nat × Field)) (fs : List Field) : Prop :=
  ∀ t req, t.WF → t.base < 2 ^ 62 → (∀ x ∈ need, x.1 < req ∧ t.Has x) → ∀ n m rest,
    HDec.readFields ⟨t, req, base⟩ (n + fs.length) (m + listSize fs) (buf ++ rest) =
      match HDec.readFields ⟨t, req, base⟩ n m rest with
      | .error e => .error e
      | .ok gs => .ok (fs ++ gs)

theorem decodes_nil (base : Nat) : Decodes [] base [] [] := by
  intro t req _ _ _ n m rest
  show HDec.readFields ⟨t, req, base⟩ n m rest = _
  cases HDec.readFields ⟨t, req, base⟩ n m rest <;> rfl

/-- One field more. -/
theorem Decodes.snoc {buf x : Bytes} {base : Nat} {need need' : List (Nat × Field)} {fs : List Field} {f : Field}
    (h : Decodes buf base need fs) (hsub : ∀ y ∈ need, y ∈ need') (hx : x ≠ [])
    (hf : ∀ t req, t.WF → t.base < 2 ^ 62 → (∀ x ∈ need', x.1 < req ∧ t.Has x) → ∀ rest,
      HDec.readField ⟨t, req, base⟩ (x ++ rest) = .ok (f, rest)) : Decodes (buf ++ x) base need' (fs ++ [f]) := by
  intro t req hw hb hn n m rest
  have h1 := h t req hw hb (fun y hy => hn y (hsub y hy)) (n + 1) (m + listSize [f]) (x ++ rest)
  rw [List.append_assoc, List.length_append, List.length_singleton, listSize_append,
    show n + (fs.length + 1) = n + 1 + fs.length by omega,
    show m + (listSize fs + listSize [f]) = m + listSize [f] + listSize fs by omega, h1]
  have h2 := hf t req hw hb hn rest
  cases hxx : x ++ rest with
  | nil => simp at hxx; exact absurd hxx.1 hx
  | cons b bs =>
    rw [hxx] at h2
    have hs : listSize [f] = f.1.length + f.2.length + 32 := by simp [listSize]
    conv => lhs; unfold HDec.readFields
    rw [h2]
    simp only [hs, entryOverhead]
    rw [if_neg (by omega), show m + (f.1.length + f.2.length + 32) - (f.1.length + f.2.length + 32) = m by omega]
    cases HDec.readFields ⟨t, req, base⟩ n m rest with
    | error e => rfl
    | ok gs => simp

/-! ## The prefix of a block -/

theorem calcReq_of {req m n : Nat} (hm : 0 < m) (h0 : 0 < req) (h1 : n < req + m) (h2 : req ≤ n + m) :
    calcReq (req % (2 * m) + 1) m n = .ok req := by
  unfold calcReq
  have hlt : req % (2 * m) < 2 * m := Nat.mod_lt _ (by omega)
  rw [if_neg (by omega), if_neg (by omega)]
  simp only
  rw [if_neg (by omega)]
  have hq : req / (2 * m) * (2 * m) + req % (2 * m) = req := Nat.div_add_mod' req (2 * m)
  have hlo : req / (2 * m) ≤ (n + m) / (2 * m) := Nat.div_le_div_right h2
  have hhi : (n + m) / (2 * m) ≤ req / (2 * m) + 1 := by
    rw [← Nat.add_div_right req (show 0 < 2 * m by omega)]
    exact Nat.div_le_div_right (by omega)
  have hv : (n + m) / (2 * m) * (2 * m) ≤ n + m := Nat.div_mul_le_self ..
  have hv2 : n + m < ((n + m) / (2 * m) + 1) * (2 * m) := by
    rw [Nat.add_mul, Nat.one_mul]
    have := Nat.div_add_mod' (n + m) (2 * m)
    have := Nat.mod_lt (n + m) (show 0 < 2 * m by omega)
    omega
  rcases Nat.lt_or_ge (req / (2 * m)) ((n + m) / (2 * m)) with hc | hc
  · have he : (n + m) / (2 * m) = req / (2 * m) + 1 := by omega
    have he2 : (n + m) / (2 * m) * (2 * m) = req / (2 * m) * (2 * m) + 2 * m := by rw [he, Nat.add_mul, Nat.one_mul]
    rw [if_pos (by omega), if_neg (by omega), if_neg (by omega)]
    congr 1
    omega
  · have he : (n + m) / (2 * m) = req / (2 * m) := by omega
    rw [he, if_neg (by omega), if_neg (by omega)]
    exact congrArg Except.ok (by omega)

theorem prefixP : basePrefixPositive.Ok := by constructor <;> decide
theorem prefixN : basePrefixNegative.Ok := by constructor <;> decide

theorem sign_bit : ∀ b < 256, (b / 128 = 0 → b &&& 0x80 = 0) ∧ (b / 128 = 1 → b &&& 0x80 ≠ 0) := by decide +kernel

theorem readBase_of {cnt req m n base : Nat} (hc : calcReq cnt m n = .ok req) (hcnt : cnt < 2 ^ 64)
    (hr : req < 2 ^ 63) (hb : base < 2 ^ 63) (buf : Bytes) :
    readBase m n (encodeInt noPrefix cnt ++
      (if req ≤ base then encodeInt basePrefixPositive (base - req) else encodeInt basePrefixNegative (req - base - 1)) ++ buf) =
      .ok (req, base, buf) := by
  unfold readBase
  rw [List.append_assoc]
  have h0 := bufInt_of (p := noPrefix) (by constructor <;> decide) hcnt
  have h0 : ∀ rest, bufInt 0 (encodeInt noPrefix cnt ++ rest) = .ok (cnt, rest) := h0
  rw [h0, do_ok]
  simp only
  rw [hc, do_ok]
  by_cases hle : req ≤ base
  · rw [if_pos hle]
    have hn : base - req < 2 ^ 64 := by omega
    have h1 := bufInt_of prefixP hn buf
    obtain ⟨b, x, h2, h3⟩ := first_of prefixP hn
    rw [h2] at h1 ⊢
    rw [List.cons_append] at h1 ⊢
    have h1 : bufInt 1 (b :: (x ++ buf)) = .ok (base - req, buf) := h1
    have h3 : b.toNat / 128 = 0 := h3
    simp only
    rw [h1, do_ok]
    simp only
    rw [(sign_bit b.toNat b.toNat_lt).1 h3]
    rw [if_neg (by simp), if_neg (by omega), show req + (base - req) = base by omega]
    rfl
  · rw [if_neg hle]
    have hn : req - base - 1 < 2 ^ 64 := by omega
    have h1 := bufInt_of prefixN hn buf
    obtain ⟨b, x, h2, h3⟩ := first_of prefixN hn
    rw [h2] at h1 ⊢
    rw [List.cons_append] at h1 ⊢
    have h1 : bufInt 1 (b :: (x ++ buf)) = .ok (req - base - 1, buf) := h1
    have h3 : b.toNat / 128 = 1 := h3
    simp only
    rw [h1, do_ok]
    simp only
    rw [if_pos ((sign_bit b.toNat b.toNat_lt).2 h3), if_neg (by omega), show req - (req - base - 1) - 1 = base by omega]
    rfl

/-! ## Blocks -/

/-- The number of inserts that a block needs. -/
def reqOf (need : List (Nat × Field)) : Nat := need.foldl (fun a x => max a (x.1 + 1)) 0

theorem foldl_max (need : List (Nat × Field)) (a : Nat) :
    need.foldl (fun a x => max a (x.1 + 1)) a = max a (reqOf need) := by
  unfold reqOf
  induction need generalizing a with
  | nil => simp
  | cons x xs ih =>
    simp only [List.foldl_cons]
    rw [ih, ih (max 0 (x.1 + 1))]
    omega

theorem reqOf_nil : reqOf [] = 0 := rfl

theorem reqOf_snoc (need : List (Nat × Field)) (x : Nat × Field) : reqOf (need ++ [x]) = max (reqOf need) (x.1 + 1) := by
  unfold reqOf; rw [List.foldl_append]; rfl

theorem reqOf_cons (x : Nat × Field) (need : List (Nat × Field)) : reqOf (x :: need) = max (x.1 + 1) (reqOf need) := by
  show need.foldl (fun a x => max a (x.1 + 1)) (max 0 (x.1 + 1)) = _
  rw [foldl_max]; omega

theorem reqOf_lt {need : List (Nat × Field)} {x : Nat × Field} (h : x ∈ need) : x.1 < reqOf need := by
  induction need with
  | nil => cases h
  | cons y ys ih =>
    rw [reqOf_cons]
    rcases List.mem_cons.mp h with rfl | h
    · omega
    · have := ih h; omega

theorem reqOf_mem {need : List (Nat × Field)} (h : need ≠ []) : ∃ x ∈ need, reqOf need = x.1 + 1 := by
  induction need with
  | nil => exact absurd rfl h
  | cons y ys ih =>
    rw [reqOf_cons]
    by_cases hy : ys = []
    · subst hy; exact ⟨y, by simp, by simp [reqOf_nil]⟩
    · obtain ⟨x, hx, he⟩ := ih hy
      by_cases hc : reqOf ys ≤ y.1 + 1
      · exact ⟨y, by simp, by omega⟩
      · exact ⟨x, by simp [hx], by omega⟩

/-- A block that was written, with what it needs. -/
structure Block where
  bytes : Bytes
  need : List (Nat × Field)
  fields : List Field

/-- The bytes are the fields, for a decoder that has the number of entries that the encoder had. -/
structure Block.Ok (maxEntries : Nat) (b : Block) : Prop where
  size : listSize b.fields ≤ maxLiteral
  bytes : ∃ base buf, base < 2 ^ 62 ∧ Decodes buf base b.need b.fields ∧ b.fields.length ≤ buf.length ∧
    (if b.need = [] then b.bytes = encodeInt noPrefix 0 ++ encodeInt basePrefixPositive base ++ buf
     else 0 < maxEntries ∧ b.bytes = encodeInt noPrefix (reqOf b.need % (2 * maxEntries) + 1) ++
      (if reqOf b.need ≤ base then encodeInt basePrefixPositive (base - reqOf b.need)
       else encodeInt basePrefixNegative (reqOf b.need - base - 1)) ++ buf)

theorem Block.Ok.readBase {m : Nat} {b : Block} (h : b.Ok m) (hm : m < 2 ^ 60) {n : Nat} (hn : n < 2 ^ 62)
    (hr : b.need ≠ [] → n < reqOf b.need + m ∧ reqOf b.need ≤ n + m) :
    ∃ base buf, Decodes buf base b.need b.fields ∧ b.fields.length ≤ buf.length ∧
      Neqo.Qp.readBase m n b.bytes = .ok (reqOf b.need, base, buf) := by
  obtain ⟨base, buf, h1, h2, h3, h4⟩ := h.bytes
  refine ⟨base, buf, h2, h3, ?_⟩
  split at h4
  · rename_i he
    have : calcReq 0 m n = .ok 0 := by unfold calcReq; rw [if_pos rfl]
    have hb := readBase_of (base := base) this (by omega) (by omega) (by omega) buf
    rw [if_pos (by omega)] at hb
    rw [h4, he]
    exact hb
  · rename_i he
    obtain ⟨h5, h6⟩ := h4
    obtain ⟨r1, r2⟩ := hr he
    obtain ⟨x, -, hx⟩ := reqOf_mem he
    have hlt : reqOf b.need % (2 * m) < 2 * m := Nat.mod_lt _ (by omega)
    rw [h6]
    exact readBase_of (calcReq_of h5 (by omega) r1 r2) (by omega) (by omega) (by omega) buf

/-- Blocks are decoded to what was encoded, or they wait for inserts. -/
theorem Block.Ok.decode {m : Nat} {b : Block} (h : b.Ok m) (hm : m < 2 ^ 60) {t : Table} (hw : t.WF) (ht : t.base < 2 ^ 62)
    (hr : b.need ≠ [] → t.base < reqOf b.need + m ∧ reqOf b.need ≤ t.base + m)
    (hh : reqOf b.need ≤ t.base → ∀ x ∈ b.need, t.Has x) :
    decodeBlock t m b.bytes =
      if t.base < reqOf b.need then .ok (.blocked (reqOf b.need)) else .ok (.headers (reqOf b.need) b.fields) := by
  obtain ⟨base, buf, h1, h2, h3⟩ := h.readBase hm ht hr
  unfold decodeBlock
  rw [h3]
  simp only
  split
  · rfl
  · rename_i hlt
    have hs := h.size
    have h4 := h1 t (reqOf b.need) hw ht (fun x hx => ⟨reqOf_lt hx, hh (by omega) x hx⟩)
      (buf.length - b.fields.length) (maxLiteral - listSize b.fields) []
    rw [List.append_nil, show buf.length - b.fields.length + b.fields.length = buf.length by omega,
      show maxLiteral - listSize b.fields + listSize b.fields = maxLiteral by omega] at h4
    have h5 : ∀ k j, HDec.readFields ⟨t, reqOf b.need, base⟩ k j [] = .ok [] := by intro k j; cases k <;> rfl
    rw [h5] at h4
    simp only [List.append_nil] at h4
    rw [h4]

end Neqo.Qp
