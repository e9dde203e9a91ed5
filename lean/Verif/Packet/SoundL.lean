import Verif.Packet.FirstL
import Verif.Codec.Props

/-! What the reader can accept. -/
namespace Neqo.Pkt
open Neqo.Codec (Bytes beBytes beVal)

theorem decodeVarint_split {d r : Bytes} {n : Nat} (h : Codec.decodeVarint d = some (n, r)) :
    ∃ e, d = e ++ r ∧ e ≠ [] ∧ Spec.IsVarint e n := by
  cases d with
  | nil => cases h
  | cons b s =>
    rw [Codec.decodeVarint_announced] at h
    split at h
    · cases h
    · rename_i hl
      simp only [Option.some.injEq, Prod.mk.injEq] at h
      obtain ⟨rfl, rfl⟩ := h
      have hpos : 0 < Codec.announcedLen b := by unfold Codec.announcedLen; exact Nat.two_pow_pos _
      obtain ⟨k, hk⟩ : ∃ k, Codec.announcedLen b = k + 1 := ⟨Codec.announcedLen b - 1, by omega⟩
      refine ⟨(b :: s).take (Codec.announcedLen b), (List.take_append_drop _ _).symm, by rw [hk]; simp, fun r => ?_⟩
      have e : (b :: s).take (Codec.announcedLen b) ++ r = b :: (s.take k ++ r) := by rw [hk]; simp
      have hlen : ((b :: s).take (Codec.announcedLen b)).length = Codec.announcedLen b := by rw [List.length_take]; omega
      rw [e, Codec.decodeVarint_announced, ← e, if_neg (by rw [List.length_append, hlen]; omega),
        List.take_left' hlen, List.drop_left' hlen]

theorem decodeVec1_split {d v r : Bytes} (h : Codec.decodeVec 1 d = some (v, r)) :
    d = Spec.string1 v ++ r ∧ v.length < 256 := by
  obtain ⟨p, h1, h2, h3⟩ := Codec.C03_vec_decode_sound 1 d v r h
  obtain ⟨x, rfl⟩ : ∃ x, p = [x] := by
    match p, h2 with
    | [x], _ => exact ⟨x, rfl⟩
  have hx : x.toNat = v.length := by simpa [beVal] using h3
  have := x.toNat_lt
  refine ⟨?_, by omega⟩
  rw [h1, Spec.string1, ← hx, UInt8.ofNat_toNat]; simp

theorem beBytes_beVal (bs : Bytes) : beBytes bs.length (beVal bs) = bs := by
  induction bs with
  | nil => rfl
  | cons x bs ih =>
    have hlt := Codec.beVal_lt bs
    have hx := x.toNat_lt
    have h1 : (x.toNat * 256 ^ bs.length + beVal bs) / 256 ^ bs.length = x.toNat := by
      rw [Nat.mul_comm, Nat.mul_add_div (Nat.pow_pos (by decide)), Nat.div_eq_of_lt hlt, Nat.add_zero]
    have h2 : ∀ (k n m : Nat), beBytes k (n * 256 ^ k + m) = beBytes k m := by
      intro k n m
      induction k generalizing n m with
      | zero => rfl
      | succ k ih2 =>
        simp only [beBytes]
        congr 1
        · apply UInt8.toNat_inj.mp
          rw [UInt8.toNat_ofNat', UInt8.toNat_ofNat', Nat.pow_succ]
          rw [show n * (256 ^ k * 256) + m = 256 ^ k * (n * 256) + m by ring, Nat.mul_add_div (Nat.pow_pos (by decide))]
          omega
        · rw [show n * 256 ^ (k + 1) + m = (n * 256) * 256 ^ k + m by rw [Nat.pow_succ]; ring]
          exact ih2 _ _
    simp only [List.length_cons, beBytes, beVal, h1, UInt8.ofNat_toNat, h2, ih]

theorem decodeN4_split {d r : Bytes} {n : Nat} (h : Codec.decodeN 4 d = some (n, r)) : d = beBytes 4 n ++ r ∧ n < 2 ^ 32 := by
  obtain ⟨_, _, h3, rfl, rfl⟩ := Codec.decodeN_some.mp h
  have hl : (d.take 4).length = 4 := by rw [List.length_take]; omega
  have := Codec.beVal_lt (d.take 4)
  rw [hl] at this
  refine ⟨?_, this⟩
  have := beBytes_beVal (d.take 4)
  rw [hl] at this
  rw [this, List.take_append_drop]

/-- The packet with the fields `p` that was read from `data`, where `rest` is what follows. -/
inductive Shape (p : Public) (rest : Bytes) : Prop where
  | short (x : UInt8) (body : Bytes) (hx : x &&& 0x80 = 0) (hty : p.ty = .short) (hrest : rest = [])
      (hdata : p.data = x :: p.dcid ++ body) (hb : 20 ≤ body.length) (hlen : p.headerLen = 1 + p.dcid.length)
      (hv : p.version = none) (hs : p.scid = none) (ht : p.token = [])
  | long (x : UInt8) (t : Spec.LTy) (v : Version) (scid tl ll body : Bytes) (hx : x &&& 0x80 ≠ 0) (hty : p.ty = t.ty)
      (hbits : Ty.fromByte ((x >>> 4) &&& 3) v = t.ty) (hv : p.version = some v.wire) (hs : p.scid = some scid)
      (hd20 : p.dcid.length ≤ 20) (hs20 : scid.length ≤ 20)
      (htok : if t = .initial then Spec.IsVarint tl p.token.length else p.token = []) (hll : Spec.IsVarint ll body.length)
      (hdata : p.data = x :: (Spec.Head.long t v p.dcid scid p.token).middle tl ll ++ body)
      (hlen : p.headerLen = 1 + ((Spec.Head.long t v p.dcid scid p.token).middle tl ll).length)
  | other (h1 : p.ty = .retry ∨ p.ty = .versionNegotiation ∨ p.ty = .otherVersion) (h2 : p.headerLen ≤ p.data.length)
      (h3 : p.data ≠ [])

theorem opt_ok {α : Type} {o : Option α} {x : α} (h : opt o = .ok x) : o = some x := by
  cases o with
  | none => cases h
  | some y => simp only [opt, Except.ok.injEq] at h; rw [h]

theorem ofWire_some {w : Nat} {v : Version} (h : Version.ofWire w = some v) : w = v.wire := by
  unfold Version.ofWire at h
  repeat' split at h
  all_goals first | (cases h; assumption) | (cases h)

theorem fromByte_cases (b : UInt8) (v : Version) : Ty.fromByte b v = .retry ∨ ∃ t : Spec.LTy, Ty.fromByte b v = t.ty := by
  unfold Ty.fromByte
  simp only
  repeat' split
  all_goals first | exact .inl rfl | exact .inr ⟨.initial, rfl⟩ | exact .inr ⟨.zeroRtt, rfl⟩ | exact .inr ⟨.handshake, rfl⟩

theorem decodeInner_shape (cid : Bytes → Option (Bytes × Bytes)) (hcid : ∀ d x r, cid d = some (x, r) → d = x ++ r)
    (exp : Nat) (other : Bool) (n : Nat) (scone : Option Nat) (data : Bytes) (p : Public) (rest : Bytes)
    (h : decodeInner cid exp other n scone data = .ok (p, rest)) :
    Shape p rest ∧ ∃ pre, data = pre ++ (p.data ++ rest) := by
  induction n generalizing scone data with
  | zero => cases h
  | succ n ih =>
    unfold decodeInner at h
    simp only [bind] at h
    obtain ⟨⟨first, d⟩, h1, h⟩ := Except.bind_eq_ok.mp h
    obtain ⟨y, hy, hd1⟩ : ∃ y : UInt8, UInt8.ofNat first = y ∧ data = y :: d := by
      obtain ⟨_, _, h3, rfl, rfl⟩ := Codec.decodeN_some.mp (opt_ok h1)
      cases data with
      | nil => simp at h3
      | cons y s => exact ⟨y, by simp [beVal], by simp⟩
    simp only [hy] at h
    by_cases hx : y &&& 0x80 = 0
    · rw [if_pos hx] at h
      obtain ⟨⟨dcid, d2⟩, h2, h⟩ := Except.bind_eq_ok.mp h
      have hd2 := hcid _ _ _ (opt_ok h2)
      split at h
      · cases h
      · rename_i hlen
        simp only [pure, Except.pure, Except.ok.injEq, Prod.mk.injEq] at h
        obtain ⟨rfl, rfl⟩ := h
        refine ⟨.short y d2 hx rfl rfl (by simp [hd1, hd2]) (by simp only at hlen; omega) ?_ rfl rfl rfl, [], by simp⟩
        simp [hd1, hd2]; omega
    · rw [if_neg hx] at h
      obtain ⟨⟨version, d2⟩, h2, h⟩ := Except.bind_eq_ok.mp h
      obtain ⟨⟨dcid, d3⟩, h3, h⟩ := Except.bind_eq_ok.mp h
      obtain ⟨⟨scid, d4⟩, h4, h⟩ := Except.bind_eq_ok.mp h
      obtain ⟨e2, hv32⟩ := decodeN4_split (opt_ok h2)
      obtain ⟨e3, hdl⟩ := decodeVec1_split (opt_ok h3)
      obtain ⟨e4, hsl⟩ := decodeVec1_split (opt_ok h4)
      have hdata : data = y :: (beBytes 4 version ++ Spec.string1 dcid ++ Spec.string1 scid ++ d4) := by
        simp only at e3 e4
        rw [hd1, e2, e3, e4]; simp
      have hne : data ≠ [] := by rw [hd1]; simp
      simp only at h
      split at h
      · simp only [pure, Except.pure, Except.ok.injEq, Prod.mk.injEq] at h
        obtain ⟨rfl, rfl⟩ := h
        exact ⟨.other (.inr (.inl rfl)) (Nat.sub_le _ _) hne, [], by simp⟩
      split at h
      · split at h
        · cases h
        · obtain ⟨i1, pre, i2⟩ := ih _ _ h
          exact ⟨i1, y :: (beBytes 4 version ++ Spec.string1 dcid ++ Spec.string1 scid) ++ pre, by rw [hdata, i2]; simp⟩
      split at h
      · split at h
        · simp only [pure, Except.pure, Except.ok.injEq, Prod.mk.injEq] at h
          obtain ⟨rfl, rfl⟩ := h
          exact ⟨.other (.inr (.inr rfl)) (Nat.sub_le _ _) hne, [], by simp⟩
        · cases h
      rename_i v hv
      split at h
      · cases h
      rename_i h20
      obtain ⟨⟨token, headerLen, d5⟩, h5, h⟩ := Except.bind_eq_ok.mp h
      simp only [pure, Except.pure, Except.ok.injEq, Prod.mk.injEq] at h
      obtain ⟨rfl, rfl⟩ := h
      have hvw := ofWire_some hv
      subst hvw
      unfold decodeLong at h5
      rcases fromByte_cases ((y >>> 4) &&& 3) v with hty | ⟨t, hty⟩
      · rw [if_pos hty] at h5
        split at h5
        · cases h5
        · obtain ⟨⟨tok, d6⟩, h6, h5⟩ := Except.bind_eq_ok.mp h5
          simp only at h5
          split at h5
          · cases h5
          · obtain ⟨⟨tg, d7⟩, h7, h5⟩ := Except.bind_eq_ok.mp h5
            simp only [pure, Except.pure, Except.ok.injEq, Prod.mk.injEq] at h5
            obtain ⟨rfl, rfl, rfl⟩ := h5
            have e6 := Codec.decode_sound (opt_ok h6)
            have e7 := Codec.decode_sound (opt_ok h7)
            have hsplit : data = (y :: (beBytes 4 v.wire ++ Spec.string1 dcid ++ Spec.string1 scid ++ tok ++ tg)) ++ d7 := by
              rw [hdata, e6.1, e7.1]; simp
            have htk : data.take (data.length - d7.length) =
                y :: (beBytes 4 v.wire ++ Spec.string1 dcid ++ Spec.string1 scid ++ tok ++ tg) := by
              rw [hsplit, List.length_append, Nat.add_sub_cancel, List.take_left']; rfl
            refine ⟨.other (.inl hty) ?_ (by simp only [htk]; simp), [], ?_⟩
            · simp only [htk]; rw [hsplit]; simp only [e6.1, e7.1]; simp
              omega
            · simp only [htk]; rw [hsplit]; simp
      · rw [if_neg (by rw [hty]; cases t <;> decide)] at h5
        have htyi : Ty.fromByte ((y >>> 4) &&& 3) v = .initial ↔ t = .initial := by rw [hty]; cases t <;> decide
        obtain ⟨tok, d6, tl, htl, e6, h5⟩ : ∃ tok d6 tl, (if t = .initial then Spec.IsVarint tl tok.length else tok = []) ∧
            d4 = (if t = .initial then tl ++ tok else []) ++ d6 ∧
            ((opt (Codec.decodeVarint d6)).bind fun x => (opt (Codec.decode x.1 x.2)).bind fun z =>
              (.ok (tok, data.length - x.2.length, z.2) : Except PErr (Bytes × Nat × Bytes))) = .ok (token, headerLen, d5) := by
          by_cases hi : t = .initial
          · simp only [if_pos (htyi.mpr hi), bind] at h5
            obtain ⟨⟨tok, d6⟩, h6, h5⟩ := Except.bind_eq_ok.mp h5
            have := Codec.C03_vvec_decode_sound _ _ _ (opt_ok h6)
            obtain ⟨tl, e, _, htl⟩ := decodeVarint_split this
            exact ⟨tok, d6, tl, by rw [if_pos hi]; exact htl, by rw [if_pos hi]; simp [e], h5⟩
          · simp only [if_neg (fun h => hi (htyi.mp h)), bind, pure, Except.pure, Except.bind] at h5
            exact ⟨[], d4, [], by rw [if_neg hi], by rw [if_neg hi]; simp, h5⟩
        obtain ⟨⟨len, d7⟩, h7, h5⟩ := Except.bind_eq_ok.mp h5
        obtain ⟨⟨body, d8⟩, h8, h5⟩ := Except.bind_eq_ok.mp h5
        simp only [Except.ok.injEq, Prod.mk.injEq] at h5
        obtain ⟨rfl, rfl, rfl⟩ := h5
        obtain ⟨ll, e7, _, hll⟩ := decodeVarint_split (opt_ok h7)
        have e8 := Codec.decode_sound (opt_ok h8)
        simp only at e8
        have hsplit : data = (y :: ((Spec.Head.long t v dcid scid tok).middle tl ll) ++ body) ++ d8 := by
          rw [hdata, e6, e7, e8.1]; simp [Spec.Head.middle]
        have htk : data.take (data.length - d8.length) = y :: ((Spec.Head.long t v dcid scid tok).middle tl ll) ++ body := by
          rw [hsplit, List.length_append, Nat.add_sub_cancel, List.take_left']; rfl
        refine ⟨.long y t v scid tl ll body hx hty hty rfl rfl ?_ ?_ htl ?_ htk ?_, [], ?_⟩
        · show dcid.length ≤ 20; omega
        · omega
        · rw [e8.2]; exact hll
        · show data.length - d7.length = _
          rw [hsplit, e8.1]; simp; omega
        · simp only [htk]; rw [hsplit]; simp

theorem decodeInner_no_panic (cid : Bytes → Option (Bytes × Bytes)) (exp : Nat) (other : Bool) (n : Nat) (scone : Option Nat)
    (data : Bytes) (hn : 2 ≤ n ∨ 1 ≤ n ∧ scone.isSome) : decodeInner cid exp other n scone data ≠ .error .panic := by
  have ho : ∀ {α : Type} (o : Option α), opt o ≠ .error .panic := by
    intro α o; cases o <;> simp [opt]
  induction n generalizing scone data with
  | zero => omega
  | succ n ih =>
    intro h
    unfold decodeInner at h
    simp only [bind] at h
    rcases Except.bind_eq_error.mp h with h | ⟨⟨first, d⟩, h1, h⟩
    · exact ho _ h
    split at h
    · rcases Except.bind_eq_error.mp h with h | ⟨_, _, h⟩
      · exact ho _ h
      · split at h <;> cases h
    rcases Except.bind_eq_error.mp h with h | ⟨_, _, h⟩
    · exact ho _ h
    rcases Except.bind_eq_error.mp h with h | ⟨_, _, h⟩
    · exact ho _ h
    rcases Except.bind_eq_error.mp h with h | ⟨_, _, h⟩
    · exact ho _ h
    simp only at h
    split at h
    · cases h
    split at h
    · split at h
      · cases h
      · rename_i hs
        refine ih _ _ (.inr ⟨?_, rfl⟩) h
        rcases hn with hn | ⟨_, hn⟩
        · omega
        · exact absurd hn hs
    split at h
    · split at h <;> cases h
    split at h
    · cases h
    rcases Except.bind_eq_error.mp h with h | ⟨_, _, h⟩
    · unfold decodeLong at h
      split at h
      · split at h
        · cases h
        rcases Except.bind_eq_error.mp h with h | ⟨_, _, h⟩
        · exact ho _ h
        simp only at h
        split at h
        · cases h
        rcases Except.bind_eq_error.mp h with h | ⟨_, _, h⟩
        · exact ho _ h
        · cases h
      · simp only [bind] at h
        split at h <;>
        · rcases Except.bind_eq_error.mp h with h | ⟨_, _, h⟩
          · first | exact ho _ h | cases h
          rcases Except.bind_eq_error.mp h with h | ⟨_, _, h⟩
          · exact ho _ h
          rcases Except.bind_eq_error.mp h with h | ⟨_, _, h⟩
          · exact ho _ h
          · cases h
    · cases h

end Neqo.Pkt
