import Verif.Codec.Lemmas

/-!
# Model of `find_sni` (`neqo-transport/src/sni.rs`), its specification and properties (C86)

The decoder is modelled by the bytes that remain.
-/
namespace Neqo.Sni
open Neqo.Codec

/-- `skip` (sni.rs:15-21). -/
def skip (n : Nat) (d : Bytes) : Option Bytes := if n > d.length then none else some (d.drop n)

/-- `skip_vec` (sni.rs:24-31) with a length of `n` bytes. -/
def skipVec (n : Nat) (d : Bytes) : Option Bytes :=
  match decodeN n d with
  | none => none
  | some (l, r) => skip l r

/-- The extension with the name (sni.rs:50-64): what remains after the fixed fields, and the length of
the name. -/
def name (d : Bytes) : Option (Bytes × Nat) :=
  match decodeN 2 d with
  | none => none
  | some (l, d) =>
    if l < 3 then none
    else
      match skip 3 d with
      | none => none
      | some d => if l - 3 > d.length then none else some (d, l - 3)

/-- The loop over the extensions (sni.rs:46-68).  Every turn takes four bytes, so that as many turns as
there are bytes are enough (`exts_fuel`). -/
def exts : Nat → Bytes → Option (Bytes × Nat)
  | 0, _ => none
  | fuel + 1, d =>
    if d.length < 4 then none
    else
      match decodeN 2 d with
      | none => none
      | some (t, d) =>
        match decodeN 2 d with
        | none => none
        | some (l, d) =>
          if t = 0 then name d
          else
            match skip l d with
            | none => none
            | some d => exts fuel d

/-- The fields before the extensions (sni.rs:36-44). -/
def preamble (buf : Bytes) : Option Bytes :=
  match decodeN 1 buf with
  | none => none
  | some (t, d) =>
    if t ≠ 1 then none
    else
      match skip 37 d with
      | none => none
      | some d =>
        match skipVec 1 d with
        | none => none
        | some d =>
          match skipVec 2 d with
          | none => none
          | some d =>
            match skipVec 1 d with
            | none => none
            | some d => skip 2 d

/-- `find_sni` (sni.rs:13-70): start and end of the name.  That `buf` is empty (sni.rs:36) is one of the
cases in which there is no first byte. -/
def findSni (buf : Bytes) : Option (Nat × Nat) :=
  match preamble buf with
  | none => none
  | some d =>
    match exts d.length d with
    | none => none
    | some (r, n) => some (buf.length - r.length, buf.length - r.length + n)

/-! ## Specification -/

/-- A vector of TLS: its length in `n` bytes, and its bytes. -/
def vec (n : Nat) (v : Bytes) : Bytes := beBytes n v.length ++ v

/-- An extension: type and contents. -/
def ext (e : Nat × Bytes) : Bytes := beBytes 2 e.1 ++ vec 2 e.2

/-- The contents of the extension with the name of the server: a list with one name (RFC 6066, section 3). -/
def nameList (host : Bytes) : Bytes := vec 2 (0 :: vec 2 host)

/-- A ClientHello (RFC 8446, section 4.1.2), up to its extensions; `len` is the length of the message, and
`total` that of the extensions. -/
def hello (len version random session suites compression total : Bytes) : Bytes :=
  [1] ++ len ++ version ++ random ++ vec 1 session ++ vec 2 suites ++ vec 1 compression ++ total

/-- The fields have the lengths they must have. -/
structure Fits (len version random session suites compression total : Bytes) : Prop where
  len : len.length = 3
  version : version.length = 2
  random : random.length = 32
  session : session.length < 256
  suites : suites.length < 65536
  compression : compression.length < 256
  total : total.length = 2

/-! ## Lemmas -/

theorem skip_append {n : Nat} {a b : Bytes} (h : a.length = n) : skip n (a ++ b) = some b := by
  unfold skip
  rw [if_neg (by rw [List.length_append]; omega), ← h, List.drop_left]

theorem skip_length {n : Nat} {d r : Bytes} (h : skip n d = some r) : r.length + n = d.length ∧ r = d.drop n := by
  unfold skip at h
  split at h
  · cases h
  · cases h; rw [List.length_drop]; exact ⟨by omega, rfl⟩

theorem decodeN_drop {n l : Nat} {d r : Bytes} (h : decodeN n d = some (l, r)) :
    r.length + n = d.length ∧ r = d.drop n ∧ 0 < n := by
  unfold decodeN at h
  split at h
  · cases h
  · split at h
    · cases h
    · cases h; rw [List.length_drop]; exact ⟨by omega, rfl, by omega⟩

theorem decode_be {n v : Nat} (h0 : 0 < n) (h8 : n ≤ 8) (h : v < 256 ^ n) (s : Bytes) :
    decodeN n (beBytes n v ++ s) = some (v, s) := by
  rw [decodeN_beBytes h0 h8, Nat.mod_eq_of_lt h]

theorem skipVec_vec {n : Nat} {v s : Bytes} (h0 : 0 < n) (h8 : n ≤ 8) (h : v.length < 256 ^ n) :
    skipVec n (vec n v ++ s) = some s := by
  unfold skipVec vec
  rw [List.append_assoc, decode_be h0 h8 h]
  exact skip_append rfl

theorem name_bound {d r : Bytes} {n : Nat} (h : name d = some (r, n)) :
    n ≤ r.length ∧ ∃ k, r = d.drop k ∧ 5 ≤ k ∧ r.length + k = d.length := by
  unfold name at h
  split at h
  · cases h
  · rename_i l d1 h1
    split at h
    · cases h
    · split at h
      · cases h
      · rename_i d2 h2
        split at h
        · cases h
        · cases h
          obtain ⟨a1, a2, _⟩ := decodeN_drop h1
          obtain ⟨b1, b2⟩ := skip_length h2
          refine ⟨by omega, 5, ?_, by omega, by omega⟩
          rw [b2, a2, List.drop_drop]

theorem exts_bound : ∀ {fuel : Nat} {d r : Bytes} {n : Nat}, exts fuel d = some (r, n) →
    n ≤ r.length ∧ ∃ k, r = d.drop k ∧ 9 ≤ k ∧ r.length + k = d.length := by
  intro fuel
  induction fuel with
  | zero => intro d r n h; cases h
  | succ fuel ih =>
    intro d r n h
    unfold exts at h
    split at h
    · cases h
    · split at h
      · cases h
      · rename_i t d1 h1
        split at h
        · cases h
        · rename_i l d2 h2
          obtain ⟨a1, a2, _⟩ := decodeN_drop h1
          obtain ⟨b1, b2, _⟩ := decodeN_drop h2
          split at h
          · obtain ⟨c1, k, c2, c3, c4⟩ := name_bound h
            refine ⟨c1, k + 4, ?_, by omega, by omega⟩
            rw [c2, b2, a2, List.drop_drop, List.drop_drop]
            congr 1; omega
          · split at h
            · cases h
            · rename_i d3 h3
              obtain ⟨e1, e2⟩ := skip_length h3
              obtain ⟨c1, k, c2, c3, c4⟩ := ih h
              refine ⟨c1, k + l + 4, ?_, by omega, by omega⟩
              rw [c2, e2, b2, a2, List.drop_drop, List.drop_drop, List.drop_drop]
              congr 1; omega

/-- More turns than bytes change nothing. -/
theorem exts_fuel : ∀ {fuel : Nat} {d : Bytes}, d.length ≤ fuel → exts fuel d = exts d.length d := by
  have main : ∀ (n : Nat) {f g : Nat} {d : Bytes}, d.length ≤ n → d.length ≤ f → d.length ≤ g →
      exts f d = exts g d := by
    intro n
    induction n with
    | zero =>
      intro f g d h1 h2 h3
      have : d = [] := List.length_eq_zero_iff.mp (by omega)
      subst this
      cases f <;> cases g <;> simp [exts]
    | succ n ih =>
      intro f g d h1 h2 h3
      by_cases h4 : d.length < 4
      · cases f <;> cases g <;> simp [exts, h4]
      · obtain ⟨f, rfl⟩ : ∃ k, f = k + 1 := ⟨f - 1, by omega⟩
        obtain ⟨g, rfl⟩ : ∃ k, g = k + 1 := ⟨g - 1, by omega⟩
        unfold exts
        rw [if_neg h4, if_neg h4]
        cases hd : decodeN 2 d with
        | none => rfl
        | some p =>
          obtain ⟨t, d1⟩ := p
          simp only
          cases hd1 : decodeN 2 d1 with
          | none => rfl
          | some p =>
            obtain ⟨l, d2⟩ := p
            simp only
            have a := (decodeN_drop hd).1
            have b := (decodeN_drop hd1).1
            split
            · rfl
            · cases hs : skip l d2 with
              | none => rfl
              | some d3 =>
                have c := (skip_length hs).1
                exact ih (by omega) (by omega) (by omega)
  intro fuel d h
  exact main d.length (Nat.le_refl _) h (Nat.le_refl _)

theorem preamble_hello {len version random session suites compression total rest : Bytes}
    (h : Fits len version random session suites compression total) :
    preamble (hello len version random session suites compression total ++ rest) = some rest := by
  unfold preamble hello
  have e : [1] ++ len ++ version ++ random ++ vec 1 session ++ vec 2 suites ++ vec 1 compression ++ total ++ rest
      = (1 : UInt8) :: ((len ++ version ++ random) ++ (vec 1 session ++ (vec 2 suites ++ (vec 1 compression ++
        (total ++ rest))))) := by simp
  rw [e, decodeN_one_cons]
  simp only
  rw [if_neg (by decide), skip_append (by
    simp only [List.length_append]; rw [h.len, h.version, h.random])]
  simp only
  rw [skipVec_vec (by omega) (by omega) (by have := h.session; omega)]
  simp only
  rw [skipVec_vec (by omega) (by omega) (by have := h.suites; omega)]
  simp only
  rw [skipVec_vec (by omega) (by omega) (by have := h.compression; omega)]
  exact skip_append h.total

theorem ext_length (e : Nat × Bytes) : (ext e).length = 4 + e.2.length := by
  unfold ext vec
  simp only [List.length_append, beBytes_length]; omega

theorem exts_skip {fuel : Nat} {e : Nat × Bytes} {s : Bytes} (h0 : e.1 ≠ 0) (h1 : e.1 < 65536)
    (h2 : e.2.length < 65536) : exts (fuel + 1) (ext e ++ s) = exts fuel s := by
  conv_lhs => unfold exts
  have hl := ext_length e
  rw [if_neg (by rw [List.length_append]; omega)]
  unfold ext vec
  rw [List.append_assoc, decode_be (by omega) (by omega) (by omega)]
  simp only
  rw [List.append_assoc, decode_be (by omega) (by omega) (by omega)]
  simp only
  rw [if_neg h0, skip_append rfl]

theorem nameList_length (host : Bytes) : (nameList host).length = 5 + host.length := by
  unfold nameList vec
  simp only [List.length_append, beBytes_length, List.length_cons]; omega

theorem name_list {host s : Bytes} (h : host.length < 65533) :
    name (nameList host ++ s) = some (host ++ s, host.length) := by
  unfold name nameList
  have e : vec 2 (0 :: vec 2 host) ++ s = beBytes 2 (3 + host.length) ++ ((0 :: beBytes 2 host.length) ++ (host ++ s)) := by
    unfold vec
    simp only [List.length_cons, List.length_append, beBytes_length, List.append_assoc, List.cons_append]
    rw [show 2 + host.length + 1 = 3 + host.length by omega]
  rw [e, decode_be (by omega) (by omega) (by omega)]
  simp only
  rw [if_neg (by omega), skip_append (by rw [List.length_cons, beBytes_length])]
  simp only
  rw [if_neg (by rw [List.length_append]; omega), show 3 + host.length - 3 = host.length by omega]

theorem exts_name {fuel : Nat} {host s : Bytes} (h : host.length < 65533 - 2) :
    exts (fuel + 1) (ext (0, nameList host) ++ s) = some (host ++ s, host.length) := by
  unfold exts
  have hl := ext_length (0, nameList host)
  have hn := nameList_length host
  rw [if_neg (by rw [List.length_append]; omega)]
  unfold ext vec
  rw [List.append_assoc, decode_be (by omega) (by omega) (by omega)]
  simp only
  rw [List.append_assoc, decode_be (by omega) (by omega) (by omega)]
  simp only
  rw [if_pos trivial, name_list (by omega)]

theorem exts_find {host s : Bytes} (h : host.length < 65531) : ∀ {l : List (Nat × Bytes)} {fuel : Nat},
    (∀ e ∈ l, e.1 ≠ 0 ∧ e.1 < 65536 ∧ e.2.length < 65536) → l.length < fuel →
    exts fuel (l.flatMap ext ++ (ext (0, nameList host) ++ s)) = some (host ++ s, host.length) := by
  intro l
  induction l with
  | nil =>
    intro fuel _ hf
    obtain ⟨f, rfl⟩ : ∃ f, fuel = f + 1 := ⟨fuel - 1, by have := hf; simp at this; omega⟩
    exact exts_name h
  | cons e l ih =>
    intro fuel hl hf
    obtain ⟨f, rfl⟩ : ∃ f, fuel = f + 1 := ⟨fuel - 1, by have := hf; simp at this; omega⟩
    obtain ⟨h0, h1, h2⟩ := hl e (by simp)
    rw [List.flatMap_cons, List.append_assoc, exts_skip h0 h1 h2]
    exact ih (fun e he => hl e (by simp [he])) (by simp at hf; omega)

theorem exts_none : ∀ {l : List (Nat × Bytes)} {fuel : Nat},
    (∀ e ∈ l, e.1 ≠ 0 ∧ e.1 < 65536 ∧ e.2.length < 65536) → exts fuel (l.flatMap ext) = none := by
  intro l
  induction l with
  | nil => intro fuel _; cases fuel <;> simp [exts]
  | cons e l ih =>
    intro fuel hl
    cases fuel with
    | zero => rfl
    | succ f =>
      obtain ⟨h0, h1, h2⟩ := hl e (by simp)
      rw [List.flatMap_cons, exts_skip h0 h1 h2]
      exact ih (fun e he => hl e (by simp [he]))

theorem flatMap_length : ∀ (l : List (Nat × Bytes)), l.length ≤ (l.flatMap ext).length := by
  intro l
  induction l with
  | nil => simp
  | cons e l ih =>
    rw [List.flatMap_cons, List.length_append, List.length_cons, ext_length]; omega

/-! ## C86 -/

/-- Whatever the bytes are, the range found lies within them, after the first 53 bytes. -/
theorem C86_in_range {buf : Bytes} {a b : Nat} (h : findSni buf = some (a, b)) :
    53 ≤ a ∧ a ≤ b ∧ b ≤ buf.length := by
  unfold findSni at h
  split at h
  · cases h
  · rename_i d hp
    split at h
    · cases h
    · rename_i r n he
      cases h
      obtain ⟨h1, k, _, h3, h4⟩ := exts_bound he
      have hlen : d.length + 44 ≤ buf.length := by
        unfold preamble at hp
        repeat' split at hp
        all_goals first | cases hp | skip
        rename_i _ d1 h1 _ _ d2 h2 _ d3 h3 _ d4 h4 _ d5 h5
        have sv : ∀ {n : Nat} {d r : Bytes}, skipVec n d = some r → r.length + n ≤ d.length := by
          intro n d r h
          unfold skipVec at h
          split at h
          · cases h
          · rename_i l r1 hd
            have := (decodeN_drop hd).1
            have := (skip_length h).1
            omega
        have := (decodeN_drop h1).1
        have := (skip_length h2).1
        have := sv h3
        have := sv h4
        have := sv h5
        have := (skip_length hp).1
        omega
      omega

/-- The name of the server is found in every ClientHello that has one, whatever extensions are before it and
whatever follows, even if the message is incomplete. -/
theorem C86_found {len version random session suites compression total host rest : Bytes}
    {before : List (Nat × Bytes)} (h : Fits len version random session suites compression total)
    (hb : ∀ e ∈ before, e.1 ≠ 0 ∧ e.1 < 65536 ∧ e.2.length < 65536) (hh : host.length < 65531) :
    ∃ a b, findSni (hello len version random session suites compression total ++ (before.flatMap ext ++
        (ext (0, nameList host) ++ rest))) = some (a, b) ∧ b = a + host.length ∧
      ((hello len version random session suites compression total ++ (before.flatMap ext ++
        (ext (0, nameList host) ++ rest))).drop a).take (b - a) = host := by
  generalize hx : hello len version random session suites compression total = x
  have hp : preamble (x ++ (before.flatMap ext ++ (ext (0, nameList host) ++ rest))) =
      some (before.flatMap ext ++ (ext (0, nameList host) ++ rest)) := by rw [← hx]; exact preamble_hello h
  unfold findSni
  rw [hp]
  simp only
  have hl := flatMap_length before
  have hel := ext_length (0, nameList host)
  have hnl := nameList_length host
  simp only at hel
  rw [exts_find hh hb (by simp only [List.length_append]; omega)]
  simp only
  refine ⟨_, _, rfl, rfl, ?_⟩
  have e : x ++ (before.flatMap ext ++ (ext (0, nameList host) ++ rest)) =
      (x ++ before.flatMap ext ++ (beBytes 2 0 ++ beBytes 2 (nameList host).length ++
        beBytes 2 (3 + host.length) ++ (0 :: beBytes 2 host.length))) ++ (host ++ rest) := by
    have e1 : ext (0, nameList host) = beBytes 2 0 ++ (beBytes 2 (nameList host).length ++
        (beBytes 2 (3 + host.length) ++ (0 :: (beBytes 2 host.length ++ host)))) := by
      have e2 : nameList host = beBytes 2 (3 + host.length) ++ (0 :: (beBytes 2 host.length ++ host)) := by
        unfold nameList vec
        rw [List.length_cons, List.length_append, beBytes_length, show 2 + host.length + 1 = 3 + host.length by omega]
      unfold ext vec
      simp only
      rw [← e2]
    rw [e1]
    simp only [List.append_assoc, List.cons_append]
  rw [e, List.length_append (bs := host ++ rest), Nat.add_sub_cancel, List.drop_left, Nat.add_sub_cancel_left,
    List.take_left]

/-- Nothing is found in a ClientHello without that extension. -/
theorem C86_not_found {len version random session suites compression total : Bytes}
    {all : List (Nat × Bytes)} (h : Fits len version random session suites compression total)
    (hb : ∀ e ∈ all, e.1 ≠ 0 ∧ e.1 < 65536 ∧ e.2.length < 65536) :
    findSni (hello len version random session suites compression total ++ all.flatMap ext) = none := by
  unfold findSni
  rw [preamble_hello h]
  simp only
  rw [exts_none hb]

/-- Nor in another message. -/
theorem C86_other_message {t : UInt8} {rest : Bytes} (h : t ≠ 1) : findSni (t :: rest) = none := by
  unfold findSni preamble
  rw [decodeN_one_cons]
  simp only
  rw [if_pos]
  intro hc
  exact h (UInt8.toNat_inj.mp hc)

/-- The message of the test in sni.rs:79-103, with the name at the place the test expects. -/
def helloExample : Bytes :=
  hello [0, 1, 0xfc] [3, 3] (List.replicate 32 7) [] [0x13, 1, 0x13, 3] [0] [1, 0xcb] ++
    ([(0xff01, [0]), (0x2d, [2, 1, 0x87])].flatMap ext ++
      (ext (0, nameList [0x6c, 0x6f, 0x63, 0x61, 0x6c, 0x68, 0x6f, 0x73, 0x74]) ++ [0, 5, 0, 5, 1, 0, 0, 0, 0]))

example : findSni helloExample = some (70, 79) ∧ helloExample.length = 88 := by decide +kernel

example : Fits [0, 1, 0xfc] [3, 3] (List.replicate 32 7) [] [0x13, 1, 0x13, 3] [0] [1, 0xcb] :=
  ⟨rfl, rfl, rfl, by decide, by decide, by decide, rfl⟩

/-- Cut in the name, the message does not show it (`find_sni_invalid_sni`, sni.rs:120-124). -/
example : findSni (helloExample.take 73) = none := by decide +kernel

/-- A list of two names counts as one name: the range covers the header of the second too. -/
theorem C86_two_names : ∃ buf, findSni buf = some (58, 65) ∧ (buf.drop 58).take 7 = [97, 98, 0, 0, 2, 99, 100] :=
  ⟨hello [0, 0, 80] [3, 3] (List.replicate 32 7) [] [0x13, 1, 0x13, 3] [0] [0, 16] ++
    ext (0, vec 2 (0 :: vec 2 [97, 98] ++ 0 :: vec 2 [99, 100])), by decide +kernel, by decide +kernel⟩

end Neqo.Sni
