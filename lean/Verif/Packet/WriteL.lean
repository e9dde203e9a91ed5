import Verif.Packet.Spec
import Verif.Codec.Props

/-! Lemmas about the packet builder. -/
namespace Neqo.Pkt
open Neqo.Codec (Bytes beBytes)

theorem modify_at (a r : Bytes) (x : UInt8) (f : UInt8 → UInt8) :
    (a ++ x :: r).modify a.length f = a ++ f x :: r := by
  induction a with
  | nil => rfl
  | cons y a ih => simp only [List.cons_append, List.length_cons, List.modify_succ_cons, ih]

theorem set_at (a r : Bytes) (x y : UInt8) : (a ++ x :: r).set a.length y = a ++ y :: r := by
  rw [List.set_append_right _ _ (Nat.le_refl _), Nat.sub_self]; rfl

theorem set_two (a r : Bytes) (x y : UInt8) :
    ((a ++ ([0, 0] ++ r)).set a.length x).set (a.length + 1) y = a ++ ([x, y] ++ r) := by
  have h1 : (a ++ ([0, 0] ++ r)) = a ++ 0 :: (0 :: r) := rfl
  rw [h1, set_at]
  have h2 : a ++ x :: 0 :: r = (a ++ [x]) ++ 0 :: r := by simp
  have h3 : a.length + 1 = (a ++ [x]).length := by simp
  rw [h2, h3, set_at]; simp

theorem split_at {l : Bytes} {k : Nat} (h : k < l.length) : ∃ a y c, l = a ++ y :: c ∧ a.length = k :=
  ⟨l.take k, l[k], l.drop (k + 1), by rw [← List.drop_eq_getElem_cons h, List.take_append_drop], by
    rw [List.length_take]; omega⟩

theorem maskPn_eq (m0 : UInt8) (m a s : Bytes) : ∀ (k : Nat) (n : Bytes), k ≤ n.length → k ≤ m.length →
    maskPn (m0 :: m) a.length k (a ++ (n ++ s)) =
      a ++ (List.zipWith (· ^^^ ·) (n.take k) m ++ (n.drop k ++ s))
  | 0, n, _, _ => by simp [maskPn]
  | k + 1, n, h, hm => by
    have ih := maskPn_eq m0 m a s k n (by omega) (by omega)
    obtain ⟨n1, y, n2, rfl, hn⟩ := split_at (show k < n.length by omega)
    obtain ⟨m1, z, m2, rfl, hm'⟩ := split_at (show k < m.length by omega)
    simp only [maskPn]
    rw [ih]
    have ht : (n1 ++ y :: n2).take k = n1 := by rw [← hn, List.take_left']; rfl
    have hd : (n1 ++ y :: n2).drop k = y :: n2 := by rw [← hn, List.drop_left']; rfl
    have ht1 : (n1 ++ y :: n2).take (k + 1) = n1 ++ [y] := by
      rw [show n1 ++ y :: n2 = (n1 ++ [y]) ++ n2 by simp, List.take_left' (by simp [hn])]
    have hd1 : (n1 ++ y :: n2).drop (k + 1) = n2 := by
      rw [show n1 ++ y :: n2 = (n1 ++ [y]) ++ n2 by simp, List.drop_left' (by simp [hn])]
    have hz : List.zipWith (fun x1 x2 : UInt8 => x1 ^^^ x2) n1 (m1 ++ z :: m2) =
        List.zipWith (fun x1 x2 : UInt8 => x1 ^^^ x2) n1 m1 := by
      have h0 : List.zipWith (fun x1 x2 : UInt8 => x1 ^^^ x2) (n1 ++ []) (m1 ++ z :: m2) =
          List.zipWith (fun x1 x2 : UInt8 => x1 ^^^ x2) n1 m1 := by
        rw [List.zipWith_append (by omega)]; simp
      rwa [List.append_nil] at h0
    have hz1 : List.zipWith (fun x1 x2 : UInt8 => x1 ^^^ x2) (n1 ++ [y]) (m1 ++ z :: m2) =
        List.zipWith (fun x1 x2 : UInt8 => x1 ^^^ x2) n1 m1 ++ [y ^^^ z] := by
      rw [List.zipWith_append (by omega)]; simp
    have hg : (m0 :: (m1 ++ z :: m2)).getD (k + 1) 0 = z := by
      simp only [List.getD_eq_getElem?_getD, ← hm']
      simp
    rw [ht, hd, ht1, hd1, hz, hz1, hg]
    have hl : a.length + k = (a ++ List.zipWith (fun x1 x2 : UInt8 => x1 ^^^ x2) n1 m1).length := by
      simp only [List.length_append, List.length_zipWith]; omega
    rw [show a ++ (List.zipWith (fun x1 x2 : UInt8 => x1 ^^^ x2) n1 m1 ++ (y :: n2 ++ s)) =
      (a ++ List.zipWith (fun x1 x2 : UInt8 => x1 ^^^ x2) n1 m1) ++ y :: (n2 ++ s) by simp, hl, modify_at]
    simp

/-- What is needed from the state of a builder before the payload is written. -/
structure Ready (b : Builder) (pre : Bytes) (first : UInt8) (mid num : Bytes) (long : Bool) (pn : Nat) : Prop where
  bytes : b.buf = pre ++ (first :: mid ++ (if long then [0, 0] else []) ++ num)
  start : b.hdrStart = pre.length
  fin : b.hdrEnd = b.buf.length
  ps : b.pnStart = b.buf.length - num.length
  pe : b.pnEnd = b.buf.length
  len : b.lenOff = if long then b.buf.length - num.length - 2 else 0
  mask : b.mask = if long then 0x0f else 0x1f
  pn : b.pn = pn

/-- The two bytes for a length. -/
def len2 (n : Nat) : Bytes := [(0x40 : UInt8) ||| UInt8.ofNat ((n >>> 8) &&& 0x3f), UInt8.ofNat (n &&& 0xff)]

theorem build_ready {b : Builder} {buf : Bytes} {first : UInt8} {mid num : Bytes} {long : Bool} {pn : Nat}
    (h : Ready b buf first mid num long pn) (c : Seal) (hc : Spec.SealOk c) (payload : Bytes) (hn : num = beBytes num.length pn)
    (h4 : num.length ≤ 4) (hlim : b.buf.length + payload.length ≤ b.limit) :
    let body := payload ++ List.replicate (4 + (16 - c.expansion) - (num.length + payload.length)) 0
    { b with buf := b.buf ++ payload }.build c =
      .ok (buf ++ Spec.protect c first (mid ++ if long then len2 (num.length + body.length + c.expansion) else [])
        pn num.length long body) := by
  intro body
  have hbl : b.buf.length = buf.length + 1 + mid.length + (if long then 2 else 0) + num.length := by
    rw [h.bytes]; cases long <;> simp <;> omega
  obtain ⟨ll, hll, hlen⟩ : ∃ ll : Bytes, ll = (if long then len2 (num.length + body.length + c.expansion) else []) ∧
      ll.length = if long then 2 else 0 := ⟨_, rfl, by cases long <;> rfl⟩
  have hps : b.pnStart = buf.length + 1 + mid.length + ll.length := by rw [h.ps, hbl, hlen]; omega
  have hrep : b.pnStart + 4 + (16 - c.expansion) - (b.buf ++ payload).length =
      4 + (16 - c.expansion) - (num.length + payload.length) := by
    rw [List.length_append, h.ps, hbl]; omega
  have hpad : ({ b with buf := b.buf ++ payload } : Builder).padForCrypto c.expansion =
      { b with buf := b.buf ++ body } := by
    simp only [Builder.padForCrypto, body, hrep, List.append_assoc]
  have hb2 : (if ({ b with buf := b.buf ++ body } : Builder).lenOff > 0 then
        ({ b with buf := b.buf ++ body } : Builder).writeLen c.expansion else { b with buf := b.buf ++ body }) =
      { b with buf := buf ++ (first :: (mid ++ ll)) ++ num ++ body } := by
    cases long with
    | false =>
      have h0 : b.lenOff = 0 := h.len
      have hl0 : ll = [] := hll
      simp only [h0, Nat.lt_irrefl, if_false, gt_iff_lt, hl0]
      congr 1
      rw [h.bytes]; simp
    | true =>
      have h0 : b.lenOff = (buf ++ first :: mid).length := by
        rw [h.len, hbl]; simp; omega
      have hpos : b.lenOff > 0 := by rw [h0]; simp
      simp only [hpos, if_true, Builder.writeLen]
      congr 1
      have hbuf : b.buf ++ body = (buf ++ first :: mid) ++ ([0, 0] ++ (num ++ body)) := by
        rw [h.bytes]; simp
      have hL : (b.buf ++ body).length - (b.lenOff + 2) + c.expansion = num.length + body.length + c.expansion := by
        rw [hbuf, h0]; simp; omega
      rw [hL, hbuf, h0, set_two]
      have hl1 : ll = len2 (num.length + body.length + c.expansion) := hll
      rw [hl1]
      simp [len2]
  have hend : b.hdrEnd = (buf ++ (first :: (mid ++ ll)) ++ num).length := by
    rw [h.fin, hbl]; simp [hlen]; omega
  unfold Builder.build
  rw [if_neg (by simp only [List.length_append]; omega)]
  simp only
  rw [hpad, hb2]
  have ht : (buf ++ (first :: (mid ++ ll)) ++ num ++ body).take b.hdrEnd = buf ++ (first :: (mid ++ ll)) ++ num := by
    rw [hend, List.take_left']; rfl
  have hd : (buf ++ (first :: (mid ++ ll)) ++ num ++ body).drop b.hdrEnd = body := by
    rw [hend, List.drop_left']; rfl
  simp only [ht, hd, h.start, h.pn, h.mask]
  have hh : (buf ++ (first :: (mid ++ ll)) ++ num).drop buf.length = first :: (mid ++ ll) ++ num := by
    rw [List.append_assoc, List.drop_left']; rfl
  rw [hh]
  generalize hct : c.enc pn (first :: (mid ++ ll) ++ num) body = ct
  have hctl : ct.length = body.length + c.expansion := by rw [← hct, hc.size]
  have hbody : 4 + 16 ≤ num.length + body.length + c.expansion := by
    simp only [body, List.length_append, List.length_replicate]; omega
  have hw : b.pnEnd - b.pnStart = num.length := by rw [h.pe, h.ps, hbl]; omega
  have hss : b.hdrEnd + 4 - (b.pnEnd - b.pnStart) = (buf ++ (first :: (mid ++ ll)) ++ num).length + (4 - num.length) := by
    rw [hw, hend]; omega
  rw [hss, if_neg (by simp only [List.length_append, hctl] at *; omega)]
  have hsam : (buf ++ (first :: (mid ++ ll)) ++ num ++ ct).drop ((buf ++ (first :: (mid ++ ll)) ++ num).length + (4 - num.length)) =
      ct.drop (4 - num.length) := by
    rw [← List.drop_drop, List.drop_left']; rfl
  rw [hsam, hw]
  obtain ⟨m0, m, hmm⟩ : ∃ m0 m, c.mask ((ct.drop (4 - num.length)).take 16) = m0 :: m := by
    have hm := hc.mask ((ct.drop (4 - num.length)).take 16)
    cases hx : c.mask ((ct.drop (4 - num.length)).take 16) with
    | nil => rw [hx] at hm; cases hm
    | cons m0 m => exact ⟨m0, m, rfl⟩
  have hm : m.length = 15 := by
    have hm := hc.mask ((ct.drop (4 - num.length)).take 16)
    rw [hmm] at hm; simpa using hm
  have e1 : buf ++ (first :: (mid ++ ll)) ++ num ++ ct = buf ++ first :: ((mid ++ ll) ++ num ++ ct) := by simp
  rw [e1, modify_at]
  have e2 : ∀ x : UInt8, buf ++ x :: ((mid ++ ll) ++ num ++ ct) = (buf ++ x :: (mid ++ ll)) ++ (num ++ ct) := by
    intro x; simp
  rw [e2]
  have e3 : ∀ x : UInt8, b.pnStart = (buf ++ x :: (mid ++ ll)).length := by
    intro x; rw [hps]; simp; omega
  have e4 : ∀ x, maskPn (m0 :: m) b.pnStart num.length
      ((buf ++ x :: (mid ++ ll)) ++ (num ++ ct)) = (buf ++ x :: (mid ++ ll)) ++
        (List.zipWith (· ^^^ ·) num m ++ ct) := by
    intro x
    rw [e3 x, maskPn_eq _ _ _ _ num.length num (Nat.le_refl _) (by rw [hm]; omega)]
    simp
  rw [hmm, e4]
  have hct' : c.enc pn (first :: (mid ++ ll ++ num)) body = ct := hct
  simp only [Spec.protect, ← hn, ← hll, List.cons_append, hct', hmm]
  simp
  
end Neqo.Pkt
