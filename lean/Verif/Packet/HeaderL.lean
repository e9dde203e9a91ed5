import Verif.Packet.WriteL

/-! The header that is written before a payload. -/
namespace Neqo.Pkt
open Neqo.Codec (Bytes beBytes)

/-- The packet that is meant by what `build_packet_header` is given, with this payload. -/
def HeaderArgs.clear (a : HeaderArgs) (payload : Bytes) : Option Spec.Clear :=
  let dcid := a.dcid.getD []
  let long (t : Spec.LTy) := Spec.Head.long t a.version dcid (a.scid.getD []) (if t = .initial then a.token else [])
  let head : Option Spec.Head := match a.ty with
    | .short => some (.short dcid (a.rnd &&& 0x20 ≠ 0) a.keyPhase)
    | .initial => some (long .initial)
    | .zeroRtt => some (long .zeroRtt)
    | .handshake => some (long .handshake)
    | _ => none
  head.map fun h => { head := h, fixed := !(a.quicBit && a.rnd &&& 0x40 ≠ 0), pn := a.pn, w := min 4 a.pnLen, payload }

theorem byte_forall (P : UInt8 → Prop) (h : ∀ n : Fin 256, P (UInt8.ofNat n)) (r : UInt8) : P r := by
  have h1 := h ⟨r.toNat, r.toNat_lt⟩
  rwa [UInt8.ofNat_toNat] at h1

set_option maxRecDepth 100000 in
theorem first_short (kp q : Bool) (r : UInt8) (w : Nat) (h1 : 1 ≤ w) (h4 : w ≤ 4) :
    ((0x40 ||| (if kp then 4 else 0)) ^^^ (r &&& ((if q then 0x40 else 0) ||| 0x20))) ||| UInt8.ofNat (w - 1) =
    UInt8.ofNat ((if !(q && decide (r &&& 0x40 ≠ 0)) then 64 else 0) + (if r &&& 0x20 ≠ 0 then 32 else 0) +
      (if kp then 4 else 0) + (w - 1)) := by
  obtain ⟨v, rfl⟩ : ∃ v : Fin 4, w = v.1 + 1 := ⟨⟨w - 1, by omega⟩, by simp; omega⟩
  rw [Nat.add_sub_cancel]
  revert r
  refine byte_forall _ ?_
  revert v kp q
  decide +kernel

set_option maxRecDepth 100000 in
theorem first_long (t : Spec.LTy) (v : Version) (q : Bool) (r : UInt8) (w : Nat) (h1 : 1 ≤ w) (h4 : w ≤ 4) :
    (((0xc0 : UInt8) ||| (((t.ty.repr + (if v = .v2 then 1 else 0)) &&& 3) <<< 4)) ^^^
        (r &&& ((if q then (0x40 : UInt8) else 0) ||| 0))) ||| UInt8.ofNat (w - 1) =
    UInt8.ofNat (128 + (if !(q && decide (r &&& 0x40 ≠ 0)) then 64 else 0) + 16 * t.code v + (w - 1)) := by
  obtain ⟨u, rfl⟩ : ∃ v : Fin 4, w = v.1 + 1 := ⟨⟨w - 1, by omega⟩, by simp; omega⟩
  rw [Nat.add_sub_cancel]
  revert r
  refine byte_forall _ ?_
  cases t <;> cases v <;> revert u q <;> decide +kernel

theorem get_at (a r : Bytes) (x : UInt8) : (a ++ x :: r)[a.length]? = some x := by simp

theorem isLong_at (b : Builder) (pre r : Bytes) (x : UInt8) (h : b.buf = pre ++ x :: r) (hs : b.hdrStart = pre.length) :
    b.isLong = .ok (x &&& 0x80 = 0x80) := by
  unfold Builder.isLong
  rw [h, hs, get_at]

theorem string1_eq (bs : Bytes) : vec1 bs = Spec.string1 bs := by
  simp [vec1, Spec.string1, beBytes]

/-- What `build_packet_header` leaves. -/
def HeaderDone (a : HeaderArgs) (buf : Bytes) (limit : Nat) (b : Builder) : Prop :=
  b.hdrStart = buf.length ∧ b.buf.take buf.length = buf ∧
  (b.limit = 0 ∨ b.limit = limit ∧ b.buf.length + (4 - min 4 a.pnLen) ≤ limit ∧
    ∃ p tl mid0, a.clear [] = some p ∧ (∀ ll, p.head.middle tl ll = mid0 ++ if p.head.isLong then ll else []) ∧
      Ready b buf p.first mid0 (beBytes p.w a.pn) p.head.isLong a.pn ∧
      (a.ty = .initial → Codec.encodeVarint a.token.length = some tl))

theorem putPn_ready (b : Builder) (pre : Bytes) (x : UInt8) (r : Bytes) (pn len : Nat) (hl : 0 < len)
    (h : b.buf = pre ++ x :: r) (hs : b.hdrStart = pre.length) :
    b.putPn pn len = .ok { b with
      buf := pre ++ (x ||| UInt8.ofNat (min 4 len - 1)) :: r ++ beBytes (min 4 len) pn
      pnStart := b.buf.length, pnEnd := b.buf.length + min 4 len, hdrEnd := b.buf.length + min 4 len, pn := pn } := by
  unfold Builder.putPn
  simp only
  rw [if_neg (by omega)]
  have e : b.buf ++ beBytes (min 4 len) pn = pre ++ x :: (r ++ beBytes (min 4 len) pn) := by rw [h]; simp
  have e2 : (b.buf ++ beBytes (min 4 len) pn).length = b.buf.length + min 4 len := by simp
  rw [e2, e, hs, modify_at]
  simp

theorem putNumber_done (b : Builder) (pre m : Bytes) (x : UInt8) (pn len : Nat) (long : Bool) (hl : 0 < len)
    (h : b.buf = pre ++ x :: m) (hs : b.hdrStart = pre.length) (hlong : decide (x &&& 0x80 = 0x80) = long)
    (hlen : b.lenOff = 0) (hm : b.mask = if long then 0x0f else 0x1f) :
    ∃ b', b.putNumber pn len = .ok b' ∧ b'.hdrStart = pre.length ∧ b'.buf.take pre.length = pre ∧
      (b'.limit = 0 ∨ b'.limit = b.limit ∧ b'.buf.length + (4 - min 4 len) ≤ b.limit ∧
        Ready b' pre (x ||| UInt8.ofNat (min 4 len - 1)) m (beBytes (min 4 len) pn) long pn) ∧
      (b.limit ≠ 0 → (if long then 6 else 4) ≤ b.remaining → b'.limit ≠ 0) := by
  unfold Builder.putNumber
  by_cases h4 : b.remaining < 4
  · rw [if_pos h4]
    refine ⟨_, rfl, hs, by simp [h], .inl rfl, fun _ h6 => ?_⟩
    cases long <;> simp at h6 <;> omega
  · rw [if_neg h4, isLong_at b pre m x h hs, hlong]
    cases long with
    | false =>
      simp only
      rw [putPn_ready b pre x m pn len hl h hs]
      refine ⟨_, rfl, hs, by simp, .inr ⟨rfl, ?_, ?_⟩, fun h0 _ => h0⟩
      · unfold Builder.remaining at h4
        have : b.buf.length = pre.length + (m.length + 1) := by rw [h]; simp
        simp only [List.length_append, List.length_cons, Codec.beBytes_length]
        omega
      · have hb : b.buf.length = pre.length + (m.length + 1) := by rw [h]; simp
        constructor <;> first | assumption | (simp [hb]; done) | (simp [hb]; omega)
    | true =>
      simp only
      by_cases h6 : b.remaining < 6
      · rw [if_pos h6]
        refine ⟨_, rfl, hs, by simp [h], .inl rfl, fun _ h6' => ?_⟩
        simp at h6'; omega
      · rw [if_neg h6, putPn_ready { b with lenOff := b.buf.length, buf := b.buf ++ [0, 0] } pre x (m ++ [0, 0]) pn len hl
          (by simp [h]) hs]
        have hb : b.buf.length = pre.length + (m.length + 1) := by rw [h]; simp
        refine ⟨_, rfl, hs, by simp, .inr ⟨rfl, ?_, ?_⟩, fun h0 _ => h0⟩
        · unfold Builder.remaining at h6
          simp only [List.length_append, List.length_cons, Codec.beBytes_length, List.length_nil]
          omega
        · constructor <;> first | assumption | (simp [hb]; done) | (simp [hb]; omega)
  
set_option maxRecDepth 100000 in
theorem short_notLong (kp q : Bool) (r : UInt8) :
    decide (((0x40 ||| (if kp then 4 else 0)) ^^^ (r &&& ((if q then 0x40 else 0) ||| 0x20))) &&& (0x80 : UInt8) = 0x80) = false := by
  revert r
  refine byte_forall _ ?_
  revert kp q
  decide +kernel

set_option maxRecDepth 100000 in
theorem long_long (t : Spec.LTy) (v : Version) (q : Bool) (r : UInt8) :
    decide ((((0xc0 : UInt8) ||| (((t.ty.repr + (if v = .v2 then 1 else 0)) &&& 3) <<< 4)) ^^^
        (r &&& ((if q then (0x40 : UInt8) else 0) ||| 0))) &&& (0x80 : UInt8) = 0x80) = true := by
  revert r
  refine byte_forall _ ?_
  cases t <;> cases v <;> revert q <;> decide +kernel

theorem header_short (a : HeaderArgs) (buf : Bytes) (limit : Nat) (hty : a.ty = .short) (hl : 0 < a.pnLen) :
    ∃ b, buildHeader a buf limit = .ok b ∧ HeaderDone a buf limit b ∧
      (5 + (a.dcid.getD []).length < limit - buf.length → b.limit ≠ 0) := by
  have hd : (a.dcid.map List.length).getD 0 = (a.dcid.getD []).length := by cases a.dcid <;> rfl
  unfold buildHeader
  rw [if_pos hty]
  simp only [pure_bind, Builder.short, hd]
  by_cases hfit : limit > buf.length ∧ 5 + (a.dcid.getD []).length < limit - buf.length
  · rw [if_pos hfit]
    have hrem : (Builder.start (buf ++ [0x40 ||| (if a.keyPhase then 4 else 0)] ++ a.dcid.getD []) buf.length 0x1f limit).remaining
        = limit - buf.length - 1 - (a.dcid.getD []).length := by
      simp [Builder.remaining, Builder.start]; omega
    rw [if_pos (by rw [hrem]; omega)]
    have hbuf : (Builder.start (buf ++ [0x40 ||| (if a.keyPhase then 4 else 0)] ++ a.dcid.getD []) buf.length 0x1f limit).buf =
        buf ++ (0x40 ||| (if a.keyPhase then 4 else 0)) :: a.dcid.getD [] := by simp [Builder.start]
    have hnl : decide (((0x40 ||| (if a.keyPhase then 4 else 0) : UInt8) &&& 0x80) = 0x80) = false := by
      cases a.keyPhase <;> rfl
    simp only [Builder.scramble, isLong_at _ _ _ _ hbuf rfl, hnl, bind, Except.bind, pure, Except.pure, hty,
      if_neg (show ¬ Ty.short = Ty.initial by decide), Bool.false_eq_true, if_false, hbuf]
    rw [show (Builder.start (buf ++ [0x40 ||| (if a.keyPhase then 4 else 0)] ++ a.dcid.getD []) buf.length 0x1f limit).hdrStart =
      buf.length from rfl, modify_at]
    obtain ⟨b', h1, h2, h3, h4, h5⟩ := putNumber_done
      { Builder.start (buf ++ [0x40 ||| (if a.keyPhase then 4 else 0)] ++ a.dcid.getD []) buf.length 0x1f limit with
        buf := buf ++ ((0x40 ||| (if a.keyPhase then 4 else 0)) ^^^ (a.rnd &&& ((if a.quicBit then 0x40 else 0) ||| 0x20))) ::
          a.dcid.getD [] } buf (a.dcid.getD []) _ a.pn a.pnLen false hl rfl rfl (short_notLong _ _ _) rfl rfl
    refine ⟨b', h1, ⟨h2, h3, ?_⟩, fun _ => h5 (show limit ≠ 0 by omega) ?_⟩
    · rcases h4 with h4 | ⟨h4, h6, h7⟩
      · exact .inl h4
      · refine .inr ⟨h4, h6, ⟨.short (a.dcid.getD []) (a.rnd &&& 0x20 ≠ 0) a.keyPhase,
          !(a.quicBit && a.rnd &&& 0x40 ≠ 0), a.pn, min 4 a.pnLen, []⟩, [], a.dcid.getD [], ?_, fun ll => ?_, ?_, ?_⟩
        · simp [HeaderArgs.clear, hty]
        · simp [Spec.Head.middle, Spec.Head.isLong]
        · rw [first_short _ _ _ _ (by omega) (by omega)] at h7
          simpa only [Spec.Clear.first, Spec.Head.isLong, decide_eq_true_eq] using h7
        · intro h; rw [hty] at h; cases h
    · simp [Builder.remaining, Builder.start]; omega
  · rw [if_neg hfit]
    have hrem : (Builder.start buf buf.length 0x1f 0).remaining = 0 := by simp [Builder.remaining, Builder.start]
    rw [hrem, if_neg (by omega)]
    simp only [pure_bind, Builder.putNumber]
    rw [if_pos (by rw [hrem]; omega)]
    refine ⟨_, rfl, ⟨rfl, by simp [Builder.start], .inl rfl⟩, fun h => absurd ⟨by omega, h⟩ hfit⟩

theorem header_long (a : HeaderArgs) (buf : Bytes) (limit : Nat) (t : Spec.LTy) (hty : a.ty = t.ty) (hl : 0 < a.pnLen)
    (htok : a.token.length < 2 ^ 62) :
    ∃ b, buildHeader a buf limit = .ok b ∧ HeaderDone a buf limit b ∧
      (12 + (a.dcid.getD []).length + (a.scid.getD []).length + (if t = .initial then a.token.length + 8 else 0) <
        limit - buf.length → b.limit ≠ 0) := by
  have hd : (a.dcid.map List.length).getD 0 = (a.dcid.getD []).length := by cases a.dcid <;> rfl
  have hs : (a.scid.map List.length).getD 0 = (a.scid.getD []).length := by cases a.scid <;> rfl
  have hns : ¬ a.ty = .short := by rw [hty]; cases t <;> decide
  unfold buildHeader
  rw [if_neg hns]
  have htb : Ty.toByte a.ty a.version = .ok ((t.ty.repr + (if a.version = .v2 then 1 else 0)) &&& 3) := by
    rw [hty]; cases t <;> rfl
  simp only [Builder.long, hd, hs, htb]
  by_cases hfit : limit > buf.length ∧ 11 + (a.dcid.getD []).length + (a.scid.getD []).length < limit - buf.length
  · rw [if_pos hfit]
    simp only [bind, Except.bind, pure, Except.pure]
    generalize hx : (0xc0 : UInt8) ||| (((t.ty.repr + (if a.version = .v2 then 1 else 0)) &&& 3) <<< 4) = x
    have hxl : decide ((x &&& 0x80) = 0x80) = true := by
      rw [← hx]; cases t <;> cases a.version <;> decide
    generalize hb0 : Builder.start (buf ++ [x] ++ beBytes 4 a.version.wire ++ vec1 (a.dcid.getD []) ++
      vec1 (a.scid.getD [])) buf.length 0x0f limit = b0
    generalize hm0 : beBytes 4 a.version.wire ++ vec1 (a.dcid.getD []) ++ vec1 (a.scid.getD []) = m0
    have hm0l : m0.length = 6 + (a.dcid.getD []).length + (a.scid.getD []).length := by
      rw [← hm0]; simp [vec1]; omega
    have hbuf : b0.buf = buf ++ x :: m0 := by rw [← hb0, ← hm0]; simp [Builder.start]
    have hst : b0.hdrStart = buf.length := by rw [← hb0]; rfl
    have hlim : b0.limit = limit := by rw [← hb0]; rfl
    have hrem : b0.remaining = limit - buf.length - 1 - m0.length := by
      unfold Builder.remaining; rw [hlim, hbuf]; simp; omega
    rw [if_pos (by rw [hrem, hm0l]; omega)]
    simp only [Builder.scramble, isLong_at _ _ _ _ hbuf hst, hxl, bind, Except.bind, pure, Except.pure, if_true, hst, hbuf, modify_at]
    generalize hy : x ^^^ (a.rnd &&& ((if a.quicBit then 64 else 0) ||| 0)) = y
    have hyl : decide (y &&& 0x80 = 0x80) = true := by rw [← hy, ← hx]; exact long_long _ _ _ _
    have hfirst : y ||| UInt8.ofNat (min 4 a.pnLen - 1) = UInt8.ofNat (128 +
        (if !(a.quicBit && decide (a.rnd &&& 0x40 ≠ 0)) then 64 else 0) + 16 * t.code a.version + (min 4 a.pnLen - 1)) := by
      rw [← hy, ← hx]; exact first_long _ _ _ _ _ (by omega) (by omega)
    have hcl : a.clear [] = some ⟨.long t a.version (a.dcid.getD []) (a.scid.getD []) (if t = .initial then a.token else []),
          !(a.quicBit && a.rnd &&& 0x40 ≠ 0), a.pn, min 4 a.pnLen, []⟩ := by
      cases t <;> simp [HeaderArgs.clear, hty, Spec.LTy.ty]
    by_cases hi : a.ty = .initial
    · have ht : t = .initial := by rw [hty] at hi; cases t <;> first | rfl | cases hi
      rw [if_pos hi]
      obtain ⟨tl, htl⟩ : ∃ tl, Codec.encodeVarint a.token.length = some tl :=
        let ⟨e, he, _⟩ := Codec.encodeVarint_decode htok
        ⟨e, he⟩
      have htll : tl.length ≤ 8 := by
        have h1 := Codec.encodeVarint_length a.token.length
        rw [htl] at h1
        unfold Codec.varintLen at h1
        split at h1 <;> try split at h1
        all_goals try split at h1
        all_goals try split at h1
        all_goals simp at h1
        all_goals omega
      have hv : Codec.encodeVvec a.token = some (tl ++ a.token) := by
        simp [Codec.encodeVvec, htl]
      simp only [Builder.initialToken, hv]
      by_cases hr : (tl ++ a.token).length < (({ b0 with hdrStart := buf.length, buf := buf ++ y :: m0 } : Builder).remaining)
      · rw [if_pos hr]
        simp only
        obtain ⟨b', h1, h2, h3, h4, h5⟩ := putNumber_done
          { b0 with hdrStart := buf.length, buf := buf ++ y :: m0 ++ (tl ++ a.token) } buf (m0 ++ (tl ++ a.token)) y a.pn a.pnLen true hl
          (by simp) rfl hyl (by rw [← hb0]; rfl) (by rw [← hb0]; rfl)
        refine ⟨b', h1, ⟨h2, h3, ?_⟩, fun hlt => h5 (show b0.limit ≠ 0 by omega) ?_⟩
        · rcases h4 with h4 | ⟨h4, h6, h7⟩
          · exact .inl h4
          · refine .inr ⟨h4.trans hlim, hlim ▸ h6, _, tl, m0 ++ (tl ++ a.token), hcl, fun ll => ?_, ?_, fun _ => htl⟩
            · simp only [Spec.Head.middle, Spec.Head.isLong, ht, if_true, ← hm0, string1_eq]
            · rw [hfirst] at h7; exact h7
        · have : ({ b0 with hdrStart := buf.length, buf := buf ++ y :: m0 ++ (tl ++ a.token) } : Builder).remaining =
              limit - (buf.length + 1 + m0.length + tl.length + a.token.length) := by
            simp only [Builder.remaining, hlim]; simp; omega
          rw [this]
          simp only [ht, if_true] at hlt ⊢
          omega
      · rw [if_neg hr]
        simp only [Builder.putNumber]
        rw [if_pos (by simp [Builder.remaining])]
        refine ⟨_, rfl, ⟨rfl, by simp, .inl rfl⟩, fun hlt => absurd ?_ hr⟩
        simp only [Builder.remaining, hlim]
        simp only [ht, if_true] at hlt
        simp; omega
    · have ht : ¬ t = .initial := fun h => hi (by rw [hty, h]; rfl)
      rw [if_neg hi]
      obtain ⟨b', h1, h2, h3, h4, h5⟩ := putNumber_done
          { b0 with hdrStart := buf.length, buf := buf ++ y :: m0 } buf m0 y a.pn a.pnLen true hl
          (by simp) rfl hyl (by rw [← hb0]; rfl) (by rw [← hb0]; rfl)
      refine ⟨b', h1, ⟨h2, h3, ?_⟩, fun hlt => h5 (show b0.limit ≠ 0 by omega) ?_⟩
      · rcases h4 with h4 | ⟨h4, h6, h7⟩
        · exact .inl h4
        · refine .inr ⟨h4.trans hlim, hlim ▸ h6, _, [], m0, hcl, fun ll => ?_, ?_, fun h => absurd h hi⟩
          · simp only [Spec.Head.middle, Spec.Head.isLong, if_neg ht, ← hm0, string1_eq]; simp
          · rw [hfirst] at h7; exact h7
      · have : ({ b0 with hdrStart := buf.length, buf := buf ++ y :: m0 } : Builder).remaining = limit - (buf.length + 1 + m0.length) := by
          simp only [Builder.remaining, hlim]; simp; omega
        rw [this]
        simp only [if_neg ht, if_true] at hlt ⊢
        omega
  · rw [if_neg hfit]
    have hrem : (Builder.start buf buf.length 0x0f 0).remaining = 0 := by simp [Builder.remaining, Builder.start]
    simp only [bind, Except.bind, pure, Except.pure]
    rw [hrem, if_neg (by omega)]
    simp only [Builder.putNumber]
    rw [if_pos (by rw [hrem]; omega)]
    refine ⟨_, rfl, ⟨rfl, by simp [Builder.start], .inl rfl⟩, fun h => absurd ⟨by omega, by omega⟩ hfit⟩

end Neqo.Pkt
