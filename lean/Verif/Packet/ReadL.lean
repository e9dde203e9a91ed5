import Verif.Packet.HeaderL

/-! Reading a packet that has the right format. -/
namespace Neqo.Pkt
open Neqo.Codec (Bytes beBytes beVal)

theorem decodeVec1 (d r : Bytes) (h : d.length < 256) : Codec.decodeVec 1 (Spec.string1 d ++ r) = some (d, r) := by
  unfold Codec.decodeVec Spec.string1
  rw [List.cons_append, Codec.decodeN_one_cons]
  have : (UInt8.ofNat d.length).toNat = d.length := by rw [UInt8.toNat_ofNat']; omega
  simp [this, Codec.decode]

theorem decode_exact (n : Nat) (a r : Bytes) (h : a.length = n) : Codec.decode n (a ++ r) = some (a, r) := by
  subst h; simp [Codec.decode]

theorem decodeVvec_of (tl a r : Bytes) (h : Spec.IsVarint tl a.length) : Codec.decodeVvec (tl ++ a ++ r) = some (a, r) := by
  unfold Codec.decodeVvec
  rw [List.append_assoc, h]
  exact decode_exact _ _ _ rfl

theorem version4 (v : Version) (r : Bytes) : Codec.decodeN 4 (beBytes 4 v.wire ++ r) = some (v.wire, r) := by
  rw [Codec.decodeN_beBytes (by decide) (by decide)]
  cases v <;> rfl

theorem parse_long (cid : Bytes → Option (Bytes × Bytes)) (exp : Nat) (other : Bool) (k : Nat) (scone : Option Nat)
    (x : UInt8) (t : Spec.LTy) (v : Version) (dcid scid token tl ll body rest : Bytes)
    (hx : x &&& 0x80 ≠ 0) (hty : Ty.fromByte ((x >>> 4) &&& 3) v = t.ty)
    (hd : dcid.length ≤ 20) (hs : scid.length ≤ 20)
    (htl : t = .initial → Spec.IsVarint tl token.length) (hll : Spec.IsVarint ll body.length) :
    decodeInner cid exp other (k + 1) scone
        (x :: (Spec.Head.long t v dcid scid token).middle tl ll ++ (body ++ rest)) =
      .ok ({ ty := t.ty, dcid, scid := some scid, token := if t = .initial then token else []
             headerLen := 1 + ((Spec.Head.long t v dcid scid token).middle tl ll).length
             version := some v.wire
             data := x :: (Spec.Head.long t v dcid scid token).middle tl ll ++ body, scone }, rest) := by
  unfold decodeInner
  simp only [List.cons_append, Codec.decodeN_one_cons, opt, bind, Except.bind, UInt8.ofNat_toNat]
  rw [if_neg hx]
  simp only [Spec.Head.middle, List.append_assoc, version4]
  rw [decodeVec1 _ _ (by omega)]
  simp only
  rw [decodeVec1 _ _ (by omega)]
  simp only
  rw [if_neg (by cases v <;> decide), if_neg (by cases v <;> decide)]
  have hw : Version.ofWire v.wire = some v := by cases v <;> rfl
  rw [hw]
  simp only
  rw [if_neg (by omega), hty]
  have hr : ¬ t.ty = .retry := by cases t <;> decide
  have hl : (ll ++ (body ++ rest)).length = ll.length + body.length + rest.length := by simp; omega
  have hll' : ∀ r, Codec.decodeVarint (ll ++ r) = some (body.length, r) := hll
  unfold decodeLong
  rw [if_neg hr]
  by_cases hi : t = .initial
  · have hti : t.ty = .initial := by rw [hi]; rfl
    have h1 := decodeVvec_of tl token (ll ++ (body ++ rest)) (htl hi)
    rw [List.append_assoc] at h1
    simp only [if_pos hti, if_pos hi, opt, List.append_assoc, h1, bind, Except.bind, hll', decode_exact _ body rest rfl, pure,
      Except.pure]
    congr 2
    congr 1
    · simp; omega
    · have e : x :: (beBytes 4 v.wire ++ (Spec.string1 dcid ++ (Spec.string1 scid ++ (tl ++ (token ++ (ll ++ (body ++ rest))))))) =
        (x :: (beBytes 4 v.wire ++ (Spec.string1 dcid ++ (Spec.string1 scid ++ (tl ++ (token ++ (ll ++ body))))))) ++ rest := by simp
      rw [e, List.length_append, Nat.add_sub_cancel, List.take_left']; rfl
  · have hti : ¬ t.ty = .initial := by cases t <;> first | exact absurd rfl hi | decide
    simp only [if_neg hti, if_neg hi, opt, bind, Except.bind, hll', decode_exact _ body rest rfl, pure, Except.pure, List.nil_append]
    congr 2
    congr 1
    · simp; omega
    · have e : x :: (beBytes 4 v.wire ++ (Spec.string1 dcid ++ (Spec.string1 scid ++ (ll ++ (body ++ rest))))) =
        (x :: (beBytes 4 v.wire ++ (Spec.string1 dcid ++ (Spec.string1 scid ++ (ll ++ body))))) ++ rest := by simp
      rw [e, List.length_append, Nat.add_sub_cancel, List.take_left']; rfl

theorem parse_short (cid : Bytes → Option (Bytes × Bytes)) (exp : Nat) (other : Bool) (k : Nat) (scone : Option Nat)
    (x : UInt8) (dcid body : Bytes) (hx : x &&& 0x80 = 0) (hc : cid (dcid ++ body) = some (dcid, body)) (hb : 20 ≤ body.length) :
    decodeInner cid exp other (k + 1) scone (x :: dcid ++ body) =
      .ok ({ ty := .short, dcid, scid := none, token := [], headerLen := 1 + dcid.length, version := none,
             data := x :: dcid ++ body, scone }, []) := by
  unfold decodeInner
  simp only [List.cons_append, Codec.decodeN_one_cons, opt, bind, Except.bind, UInt8.ofNat_toNat]
  rw [if_pos hx, hc]
  simp only
  rw [if_neg (by omega)]
  simp only [pure, Except.pure]
  congr 3
  simp; omega

theorem xor_cancel (x m : UInt8) : (x ^^^ m) ^^^ m = x := by
  rw [UInt8.xor_assoc, UInt8.xor_self, UInt8.xor_zero]

theorem zipWith_cancel (a m : Bytes) (h : a.length ≤ m.length) :
    List.zipWith (· ^^^ ·) (List.zipWith (· ^^^ ·) a m) m = a := by
  induction a generalizing m with
  | nil => simp
  | cons x a ih =>
    cases m with
    | nil => simp at h
    | cons y m =>
      simp only [List.zipWith_cons_cons, xor_cancel]
      rw [ih m (by simpa using h)]

theorem beVal_append (a b : Bytes) : beVal (a ++ b) = beVal a * 256 ^ b.length + beVal b := by
  induction a with
  | nil => simp [beVal]
  | cons x a ih =>
    simp only [List.cons_append, beVal, ih, List.length_append, Nat.pow_add, Nat.add_mul, Nat.mul_assoc]
    omega

set_option maxRecDepth 100000 in
theorem low2 (w : Nat) (h1 : 1 ≤ w) (h4 : w ≤ 4) (x : UInt8) (h : x &&& 3 = UInt8.ofNat (w - 1)) : ((x &&& 3) + 1).toNat = w := by
  rw [h]
  obtain ⟨v, rfl⟩ : ∃ v : Fin 4, w = v.1 + 1 := ⟨⟨w - 1, by omega⟩, by simp; omega⟩
  rw [Nat.add_sub_cancel]
  clear h h1 h4
  revert v; decide +kernel

/-- What removing the header protection gives for a packet with protection. -/
theorem decryptHeader_protect (c : Seal) (hc : Spec.SealOk c) (p : Public) (first : UInt8) (mid : Bytes) (pn w next : Nat)
    (payload : Bytes) (hw1 : 1 ≤ w) (hw4 : w ≤ 4) (hlow : first &&& 3 = UInt8.ofNat (w - 1))
    (henough : 20 ≤ w + payload.length + c.expansion)
    (hdata : p.data = Spec.protect c first mid pn w (p.ty ≠ .short) payload) (hlen : p.headerLen = 1 + mid.length)
    (h1 : next < pn + 256 ^ w / 2) (h2 : pn ≤ next + 256 ^ w / 2) :
    p.decryptHeader c.mask next = .ok (p.ty = .short && first &&& 4 = 4, pn, 1 + mid.length + w,
      first :: mid ++ beBytes w pn ++ c.enc pn (first :: mid ++ beBytes w pn) payload) := by
  unfold Spec.protect at hdata
  simp only at hdata
  generalize hct : c.enc pn (first :: mid ++ beBytes w pn) payload = ct at *
  have hctl : ct.length = payload.length + c.expansion := by rw [← hct, hc.size]
  generalize hm : c.mask ((ct.drop (4 - w)).take 16) = m at *
  have hml : m.length = 16 := by rw [← hm]; exact hc.mask _
  generalize hz : List.zipWith (· ^^^ ·) (beBytes w pn) (m.drop 1) = z at *
  have hzl : z.length = w := by rw [← hz]; simp [hml]; omega
  have hbits : (if decide (p.ty ≠ .short) = true then (0x0f : UInt8) else 0x1f) = if p.ty = .short then 0x1f else 0x0f := by
    by_cases h : p.ty = .short <;> simp [h]
  rw [hbits] at hdata
  generalize hb : (if p.ty = .short then (0x1f : UInt8) else 0x0f) = bits at *
  have hdl : p.data.length = 1 + mid.length + w + ct.length := by rw [hdata]; simp [hzl]; omega
  have hsample : (p.data.drop (p.headerLen + 4)).take 16 = (ct.drop (4 - w)).take 16 := by
    rw [hdata, hlen]
    have : (first ^^^ (m.getD 0 0 &&& bits)) :: mid ++ z ++ ct = ((first ^^^ (m.getD 0 0 &&& bits)) :: mid ++ z) ++ ct := rfl
    rw [this, List.drop_append]
    have hl : ((first ^^^ (m.getD 0 0 &&& bits)) :: mid ++ z).length = 1 + mid.length + w := by simp [hzl]; omega
    rw [hl, List.drop_eq_nil_of_le (by rw [hl]; omega), List.nil_append]
    congr 2
    omega
  unfold Public.decryptHeader
  simp only
  rw [if_neg (by rw [hdl, hlen, hctl]; omega), hsample, hm, hb]
  have hcons : p.data = (first ^^^ (m.getD 0 0 &&& bits)) :: (mid ++ z ++ ct) := by rw [hdata]; simp
  rw [hcons]
  simp only [xor_cancel, List.set_cons_zero]
  have hw := low2 w hw1 hw4 first hlow
  rw [hw, hlen]
  have hdrop : (first :: (mid ++ z ++ ct)).drop (1 + mid.length) = z ++ ct := by
    rw [Nat.add_comm, List.drop_succ_cons, List.append_assoc, List.drop_left']; rfl
  have htake : (first :: (mid ++ z ++ ct)).take (1 + mid.length) = first :: mid := by
    rw [Nat.add_comm, List.take_succ_cons, List.append_assoc, List.take_left']; rfl
  have hdrop2 : (first :: (mid ++ z ++ ct)).drop (1 + mid.length + w) = ct := by
    rw [← List.drop_drop, hdrop, List.drop_left' hzl]
  have ht4 : (z ++ ct).take 4 = z ++ ct.take (4 - w) := by
    rw [List.take_append, hzl, List.take_of_length_le (by omega)]
  obtain ⟨m1, hm1⟩ : ∃ m1, m = m.take 1 ++ (m.drop 1).take w ++ m1 := ⟨(m.drop 1).drop w, by
    rw [List.append_assoc, List.take_append_drop, List.take_append_drop]⟩
  have hun : unmaskPn m (z ++ ct.take (4 - w)) = beBytes w pn ++
      List.zipWith (· ^^^ ·) (ct.take (4 - w)) (m.drop (1 + w)) := by
    unfold unmaskPn
    rw [show m.drop 1 = (m.drop 1).take w ++ m.drop (1 + w) by rw [← List.drop_drop, List.take_append_drop],
      List.zipWith_append (by simp [hzl, hml]; omega)]
    congr 1
    rw [← hz]
    have : List.zipWith (· ^^^ ·) (beBytes w pn) (m.drop 1) = List.zipWith (· ^^^ ·) (beBytes w pn) ((m.drop 1).take w) := by
      rw [List.zipWith_eq_zipWith_take_min, List.length_drop, Codec.beBytes_length, hml,
        show min w (16 - 1) = w by omega, List.take_of_length_le (by simp)]
    rw [this]
    exact zipWith_cancel _ _ (by simp [hml]; omega)
  rw [hdrop, htake, hdrop2, ht4, hun, List.take_left' (by simp), beVal_append, Codec.beVal_beBytes]
  have hel : (List.zipWith (· ^^^ ·) (ct.take (4 - w)) (m.drop (1 + w))).length = 4 - w := by
    simp [hml]; omega
  have hlt := Codec.beVal_lt (List.zipWith (· ^^^ ·) (ct.take (4 - w)) (m.drop (1 + w)))
  rw [hel] at hlt ⊢
  rw [Nat.shiftRight_eq_div_pow, show 2 ^ (8 * (4 - w)) = 256 ^ (4 - w) by rw [Nat.pow_mul],
    Nat.mul_comm, Nat.mul_add_div (Nat.pow_pos (by decide)), Nat.div_eq_of_lt hlt, Nat.add_zero]
  have := Keys.decodePn_near (e := next) h1 h2 hw1
  unfold Keys.truncate at this
  rw [this]

end Neqo.Pkt
