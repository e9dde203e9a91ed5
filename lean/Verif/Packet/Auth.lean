import Verif.Packet.Props

/-!
# Only what the peer protected is accepted (C74)
-/
namespace Neqo.Pkt
open Neqo.Codec (Bytes beBytes beVal)

def Spec.Head.scid : Spec.Head → Option Bytes
  | .short .. => none
  | .long _ _ _ s _ => some s

/-- The associated data of a packet: its header in the clear. -/
def Spec.Clear.aad (p : Spec.Clear) (tl ll : Bytes) : Bytes :=
  p.first :: p.head.middle tl ll ++ beBytes p.w p.pn

/-- `dec` opens only what was protected with its key: `sent q tl ll` are the packets, with
the lengths in them. -/
def Spec.Genuine (c : Seal) (dec : Nat → Bytes → Bytes → Option Bytes) (sent : Spec.Clear → Bytes → Bytes → Prop) : Prop :=
  ∀ pn aad ct pt, dec pn aad ct = some pt →
    ∃ q tl ll, sent q tl ll ∧ q.Ok c ∧ q.Lengths c tl ll ∧ pn = q.pn ∧ aad = q.aad tl ll ∧ pt = q.payload

theorem middle_inj (t t' : Spec.LTy) (v v' : Version) (d d' s s' k k' tl tl' ll ll' : Bytes) (x : UInt8)
    (ht : Ty.fromByte ((x >>> 4) &&& 3) v = t.ty) (ht' : Ty.fromByte ((x >>> 4) &&& 3) v' = t'.ty)
    (hd : d.length ≤ 20) (hd' : d'.length ≤ 20) (hs : s.length ≤ 20) (hs' : s'.length ≤ 20)
    (hk : if t = .initial then Spec.IsVarint tl k.length else k = []) (hk' : t' = .initial → Spec.IsVarint tl' k'.length)
    (h : (Spec.Head.long t v d s k).middle tl ll = (Spec.Head.long t' v' d' s' k').middle tl' ll') :
    t = t' ∧ v = v' ∧ d = d' ∧ s = s' ∧ k = if t' = .initial then k' else [] := by
  simp only [Spec.Head.middle, List.append_assoc] at h
  have h1 := congrArg (Codec.decodeN 4) h
  rw [version4, version4] at h1
  simp only [Option.some.injEq, Prod.mk.injEq] at h1
  have hv : v = v' := by
    have := h1.1
    revert this; cases v <;> cases v' <;> decide
  subst hv
  have htt : t = t' := by
    rw [ht] at ht'
    revert ht'; cases t <;> cases t' <;> decide
  subst htt
  have h2 := congrArg (Codec.decodeVec 1) h1.2
  rw [decodeVec1 _ _ (by omega), decodeVec1 _ _ (by omega)] at h2
  simp only [Option.some.injEq, Prod.mk.injEq] at h2
  have h3 := congrArg (Codec.decodeVec 1) h2.2
  rw [decodeVec1 _ _ (by omega), decodeVec1 _ _ (by omega)] at h3
  simp only [Option.some.injEq, Prod.mk.injEq] at h3
  refine ⟨rfl, rfl, h2.1, h3.1, ?_⟩
  by_cases hi : t = .initial
  · rw [if_pos hi] at hk
    rw [if_pos hi]
    have h4 := h3.2
    rw [if_pos hi, if_pos hi] at h4
    have h5 := congrArg Codec.decodeVvec h4
    rw [decodeVvec_of _ _ _ hk, decodeVvec_of _ _ _ (hk' hi)] at h5
    simp only [Option.some.injEq, Prod.mk.injEq] at h5
    exact h5.1
  · rw [if_neg hi] at hk ⊢
    exact hk

/-- What the associated data is when a packet is opened. -/
theorem decryptHeader_aad (p : Public) (mask : Bytes → Bytes) (hm : ∀ s, (mask s).length = 16) (next : Nat) (x : UInt8)
    (mid body : Bytes) (hdata : p.data = x :: mid ++ body) (hlen : p.headerLen = 1 + mid.length) (kp : Bool) (pn e : Nat) (data : Bytes)
    (h : p.decryptHeader mask next = .ok (kp, pn, e, data)) :
    ∃ m num, let first := x ^^^ (m &&& (if p.ty = .short then 0x1f else 0x0f))
      num.length = ((first &&& 3) + 1).toNat ∧ data.take e = first :: mid ++ num ∧ data.headD 0 = first ∧
      kp = (decide (p.ty = .short) && decide (first &&& 4 = 4)) := by
  unfold Public.decryptHeader at h
  simp only at h
  split at h
  · cases h
  rename_i hbig
  have hcons : p.data = x :: (mid ++ body) := by rw [hdata]; simp
  generalize hmm : mask ((p.data.drop (p.headerLen + 4)).take 16) = m at h
  have hml : m.length = 16 := by rw [← hmm]; exact hm _
  rw [hcons] at h
  simp only [List.set_cons_zero, Except.ok.injEq, Prod.mk.injEq] at h
  obtain ⟨h1, h2, h3, h4⟩ := h
  refine ⟨m.getD 0 0, (unmaskPn m ((mid ++ body).drop (mid.length) |>.take 4)).take
    (((x ^^^ (m.getD 0 0 &&& (if p.ty = .short then 0x1f else 0x0f))) &&& 3) + 1).toNat, ?_, ?_, ?_, h1.symm⟩
  · have hw : ∀ y : UInt8, ((y &&& 3) + 1).toNat ≤ 4 := by
      refine byte_forall _ ?_; decide +kernel
    have := hw (x ^^^ (m.getD 0 0 &&& (if p.ty = .short then 0x1f else 0x0f)))
    simp only [List.drop_left', unmaskPn, List.length_take, List.length_zipWith, List.length_drop, hml]
    rw [hdata, hlen] at hbig
    simp at hbig
    omega
  · have hd : (List.drop p.headerLen ((x ^^^ (m.getD 0 0 &&& (if p.ty = .short then 0x1f else 0x0f))) :: (mid ++ body))) =
        (mid ++ body).drop mid.length := by rw [hlen, Nat.add_comm, List.drop_succ_cons]
    have htk : (List.take p.headerLen ((x ^^^ (m.getD 0 0 &&& (if p.ty = .short then 0x1f else 0x0f))) :: (mid ++ body))) =
        (x ^^^ (m.getD 0 0 &&& (if p.ty = .short then 0x1f else 0x0f))) :: mid := by
      rw [hlen, Nat.add_comm, List.take_succ_cons, List.take_left']; rfl
    rw [← h4, ← h3, hd, htk]
    apply List.take_left'
    have hw : ∀ y : UInt8, ((y &&& 3) + 1).toNat ≤ 4 := by
      refine byte_forall _ ?_; decide +kernel
    have := hw (x ^^^ (m.getD 0 0 &&& (if p.ty = .short then 0x1f else 0x0f)))
    simp only [List.drop_left', unmaskPn, List.length_take, List.length_zipWith, List.length_drop, hml, List.length_append, List.length_cons]
    rw [hdata, hlen] at hbig
    simp at hbig
    omega
  · rw [← h4, hlen, Nat.add_comm, List.take_succ_cons]; simp

/-- C74: what is accepted was protected by the peer with the key that opened it, and the
application is given its type, number, connection IDs, token, key phase and payload. -/
theorem C74_authentic (cid : Bytes → Option (Bytes × Bytes)) (hcid : ∀ d x r, cid d = some (x, r) → d = x ++ r)
    (exp : Nat) (other : Bool) (c : Seal) (data rest : Bytes) (pub : Public) (k : RxKeys) (d : Decrypted)
    (sent : Version → Ty → Bool → Spec.Clear → Bytes → Bytes → Prop)
    (hmask : ∀ v t m next, k.hp v t = some (m, next) → ∀ s, (m s).length = 16)
    (hk : ∀ v t kp v' dec, k.rx v t kp = some (v', dec) → Spec.Genuine c dec (sent v t kp))
    (h : decodePublic cid exp other data = .ok (pub, rest)) (hd : pub.decrypt k = .ok d) :
    ∃ q tl ll, sent (pub.version?.getD .v1) pub.ty d.keyPhase q tl ll ∧ d.ty = q.head.ty ∧ d.pn = q.pn ∧
      d.data = q.payload ∧ d.dcid = q.head.dcid ∧ d.scid = q.head.scid ∧ pub.token = q.head.token ∧
      d.keyPhase = q.head.keyPhase ∧ (q.head.isLong → pub.version = some q.head.version.wire) := by
  obtain ⟨hs, _⟩ := decodeInner_shape cid hcid _ _ _ _ _ _ _ h
  unfold Public.decrypt at hd
  split at hd
  · rename_i hty
    simp only at hd
    generalize hver : pub.version?.getD .v1 = ver at hd ⊢
    cases hhp : k.hp ver pub.ty with
    | none => rw [hhp] at hd; simp only at hd; split at hd <;> cases hd
    | some mn =>
      obtain ⟨mask, next⟩ := mn
      rw [hhp] at hd
      simp only at hd
      cases hdh : pub.decryptHeader mask next with
      | error e => rw [hdh] at hd; cases hd
      | ok r =>
        obtain ⟨kp, pn, e, out⟩ := r
        rw [hdh] at hd
        simp only at hd
        cases hrx : k.rx ver pub.ty kp with
        | none => rw [hrx] at hd; cases hd
        | some vd =>
          obtain ⟨v', dec⟩ := vd
          rw [hrx] at hd
          simp only at hd
          cases hdec : dec pn (out.take e) (out.drop e) with
          | none => rw [hdec] at hd; cases hd
          | some payload =>
            rw [hdec] at hd
            simp only at hd
            generalize (if pub.ty.isLong = true then (12 : UInt8) else 24) = reserved at hd
            split at hd
            · cases hd
            injection hd with hd
            subst hd
            obtain ⟨q, tl, ll, hq1, hq2, hq3, hq4, hq5, hq6⟩ := hk _ _ _ _ _ hrx _ _ _ _ hdec
            refine ⟨q, tl, ll, hq1, ?_⟩
            simp only
            -- the header of the packet is that of `q`
            have common : ∀ (x : UInt8) (mid body : Bytes), pub.data = x :: mid ++ body → pub.headerLen = 1 + mid.length →
                ∃ m, q.first = x ^^^ (m &&& (if pub.ty = .short then 0x1f else 0x0f)) ∧ mid = q.head.middle tl ll ∧
                  kp = (decide (pub.ty = .short) && decide (q.first &&& 4 = 4)) := by
              intro x mid body e1 e2
              obtain ⟨m, num, a1, a2, a3, a4⟩ := decryptHeader_aad pub mask (hmask _ _ _ _ hhp) next x mid body e1 e2 kp pn e out hdh
              rw [a2, Spec.Clear.aad, List.cons_append, List.cons_append, List.cons.injEq] at hq5
              obtain ⟨b1, b2⟩ := hq5
              have hw : num.length = q.w := by
                rw [a1, b1]
                apply low2 _ hq2.w1 hq2.w4
                unfold Spec.Clear.first
                cases hh : q.head with
                | short d s kp => exact (short_first q.fixed s kp q.w hq2.w1 hq2.w4).2.1
                | long t v d s tk => exact (long_first t v q.fixed q.w hq2.w1 hq2.w4).2.2.1
              refine ⟨m, b1.symm, (List.append_inj' b2 (by simp [hw])).1, ?_⟩
              rw [a4, b1]
            have hpnq : pn = q.pn := hq4
            cases hs with
            | short x body hx hts hrest hdata hb hlen hv hsc ht =>
              obtain ⟨m, c1, c2, c3⟩ := common x pub.dcid body hdata hlen
              rw [if_pos hts] at c1
              cases hh : q.head with
              | short dq sq kq =>
                rw [hh] at c2
                simp only [Spec.Head.ty, Spec.Head.dcid, Spec.Head.scid, Spec.Head.token, Spec.Head.keyPhase, Spec.Head.isLong]
                refine ⟨hts, hpnq, hq6, c2, hsc, ht, ?_, fun h => by cases h⟩
                rw [c3, hts]
                have := (short_first q.fixed sq kq q.w hq2.w1 hq2.w4).2.2.2
                unfold Spec.Clear.first
                rw [hh]
                simpa using this
              | long t v dq sq tk =>
                exfalso
                have h1 := (long_first t v q.fixed q.w hq2.w1 hq2.w4).1
                apply h1
                have : q.first &&& 0x80 = 0 := by rw [c1, xor_high _ _ _ _ (by decide)]; exact hx
                unfold Spec.Clear.first at this
                rw [hh] at this
                exact this
            | long x t v scid tl' ll' body hx hts hbits hv hsc hd20 hs20 htok hll hdata hlen =>
              obtain ⟨m, c1, c2, c3⟩ := common x _ body hdata hlen
              have hns : ¬ pub.ty = .short := by rw [hts]; cases t <;> decide
              rw [if_neg hns] at c1
              cases hh : q.head with
              | short dq sq kq =>
                exfalso
                have h1 := (short_first q.fixed sq kq q.w hq2.w1 hq2.w4).1
                have : q.first &&& 0x80 ≠ 0 := by rw [c1, xor_high _ _ _ _ (by decide)]; exact hx
                apply this
                unfold Spec.Clear.first
                rw [hh]
                exact h1
              | long t2 vq dq sq tk =>
                rw [hh] at c2
                have hids := hq2.ids
                rw [hh] at hids
                have hl := hq3
                unfold Spec.Clear.Lengths at hl
                rw [hh] at hl
                have hb1 : Ty.fromByte ((q.first >>> 4) &&& 3) v = t.ty := by rw [c1, xor_type]; exact hbits
                have hb2 : Ty.fromByte ((q.first >>> 4) &&& 3) vq = t2.ty := by
                  unfold Spec.Clear.first
                  rw [hh]
                  exact (long_first t2 vq q.fixed q.w hq2.w1 hq2.w4).2.1
                obtain ⟨r1, r2, r3, r4, r5⟩ := middle_inj t t2 v vq _ dq _ sq _ tk tl' tl ll' ll q.first hb1 hb2
                  hd20 hids.1 hs20 hids.2 htok hl.1 c2
                simp only [Spec.Head.ty, Spec.Head.dcid, Spec.Head.scid, Spec.Head.keyPhase, Spec.Head.version]
                refine ⟨by rw [hts, r1], hpnq, hq6, r3, by rw [hsc, r4], ?_, ?_, fun _ => by rw [hv, r2]⟩
                · rw [r5]; cases t2 <;> rfl
                · rw [c3]; simp [hns]
            | other h1 h2 h3 =>
              rcases h1 with h1 | h1 | h1 <;> rw [h1] at hty <;> simp at hty
  · cases hd

theorem decrypt_dcid {p : Public} {k : RxKeys} {d : Decrypted} (h : p.decrypt k = .ok d) : d.dcid = p.dcid := by
  unfold Public.decrypt at h
  split at h
  · simp only at h
    split at h
    · split at h <;> cases h
    · split at h
      · cases h
      · split at h
        · cases h
        · split at h
          · cases h
          · generalize (if p.ty.isLong = true then (12 : UInt8) else 24) = reserved at h
            split at h
            · cases h
            · injection h with h; subst h; rfl
  · cases h

/-- Each packet that the loop accepts was taken from the datagram and opened with a key of some
state, and has the connection ID of the packets before. -/
theorem inputLoop_accepts {σ : Type} (i : Input σ) (cid : Bytes → Option (Bytes × Bytes)) (exp : Nat) (n : Nat) :
    ∀ (s : σ) (dcid : Option Bytes) (data : Bytes), ∀ d ∈ (inputLoop i cid exp n s dcid data).2,
      (∀ x, dcid = some x → d.dcid = x) ∧
      (∀ d' ∈ (inputLoop i cid exp n s dcid data).2, d.dcid = d'.dcid) ∧
      ∃ part pub rest s', decodePublic cid exp false part = .ok (pub, rest) ∧ pub.decrypt (i.keys s') = .ok d := by
  induction n with
  | zero => intro s dcid data d hd; cases hd
  | succ n ih =>
    intro s dcid data
    unfold inputLoop
    split
    · intro d hd; cases hd
    split
    · intro d hd; cases hd
    rename_i p rem hdec
    split
    · intro d hd; cases hd
    rename_i hsame
    have hp : ∀ x, dcid = some x → p.dcid = x := by
      intro x hx
      rw [hx] at hsame
      simpa using Eq.symm (by simpa using hsame)
    split
    · intro d hd; cases hd
    rename_i s1 _
    split
    · rename_i d0 hopen
      have h0 := decrypt_dcid hopen
      split
      · intro d hd
        rw [List.mem_singleton.mp hd]
        refine ⟨fun x hx => h0.trans (hp x hx), fun d' hd' => by rw [List.mem_singleton.mp hd'], data, p, rem, s1, hdec, hopen⟩
      · rename_i s2 _
        have hr := ih s2 (some d0.dcid) rem
        cases he : inputLoop i cid exp n s2 (some d0.dcid) rem with
        | mk s3 ds =>
          rw [he] at hr
          dsimp only at hr ⊢
          have hall : ∀ d ∈ d0 :: ds, d.dcid = d0.dcid := by
            intro d hd
            rcases List.mem_cons.mp hd with rfl | hd
            · rfl
            · exact (hr d hd).1 _ rfl
          intro d hd
          refine ⟨fun x hx => (hall d hd).trans (h0.trans (hp x hx)), fun d' hd' => (hall d hd).trans (hall d' hd').symm, ?_⟩
          rcases List.mem_cons.mp hd with rfl | hd
          · exact ⟨data, p, rem, s1, hdec, hopen⟩
          · exact (hr d hd).2.2
    · split
      · intro d hd; cases hd
      · rename_i s2 _
        have hr := ih s2 (some p.dcid) rem
        intro d hd
        obtain ⟨h1, h2, h3⟩ := hr d hd
        exact ⟨fun x hx => (h1 _ rfl).trans (hp x hx), h2, h3⟩

/-- C74: all packets that are accepted from one datagram are for the same connection ID, and each
of them was protected by the peer, whatever the datagram is and whatever is done with its packets. -/
theorem C74_datagram {σ : Type} (i : Input σ) (cid : Bytes → Option (Bytes × Bytes)) (hcid : ∀ d x r, cid d = some (x, r) → d = x ++ r)
    (exp n : Nat) (c : Seal) (s : σ) (datagram : Bytes)
    (sent : Version → Ty → Bool → Spec.Clear → Bytes → Bytes → Prop)
    (hmask : ∀ s v t m next, (i.keys s).hp v t = some (m, next) → ∀ x, (m x).length = 16)
    (hk : ∀ s v t kp v' dec, (i.keys s).rx v t kp = some (v', dec) → Spec.Genuine c dec (sent v t kp)) :
    ∀ d ∈ (inputLoop i cid exp n s none datagram).2,
      (∀ d' ∈ (inputLoop i cid exp n s none datagram).2, d.dcid = d'.dcid) ∧
      ∃ v q tl ll, sent v d.ty d.keyPhase q tl ll ∧ d.ty = q.head.ty ∧ d.pn = q.pn ∧ d.data = q.payload ∧
        d.dcid = q.head.dcid ∧ d.scid = q.head.scid ∧ d.keyPhase = q.head.keyPhase := by
  intro d hd
  obtain ⟨_, h2, part, pub, rest, s', hdec, hopen⟩ := inputLoop_accepts i cid exp n s none datagram d hd
  refine ⟨h2, ?_⟩
  obtain ⟨q, tl, ll, a1, a2, a3, a4, a5, a6, _, a8, _⟩ :=
    C74_authentic cid hcid exp false c part rest pub (i.keys s') d sent (hmask s') (hk s') hdec hopen
  refine ⟨pub.version?.getD .v1, q, tl, ll, ?_, a2, a3, a4, a5, a6, a8⟩
  have : pub.ty = d.ty := by
    unfold Public.decrypt at hopen
    split at hopen
    · simp only at hopen
      split at hopen
      · split at hopen <;> cases hopen
      · split at hopen
        · cases hopen
        · split at hopen
          · cases hopen
          · split at hopen
            · cases hopen
            · generalize (if pub.ty.isLong = true then (12 : UInt8) else 24) = reserved at hopen
              split at hopen
              · cases hopen
              · injection hopen with hopen; subst hopen; rfl
    · cases hopen
  rw [← this]; exact a1

/-- A key that was used for one packet. -/
def oneOpen (c : Seal) (q : Spec.Clear) (tl ll : Bytes) : Nat → Bytes → Bytes → Option Bytes := fun pn aad ct =>
  if pn = q.pn ∧ aad = q.aad tl ll ∧ ct = c.enc q.pn (q.aad tl ll) q.payload then some q.payload else none

example : Spec.Genuine toySeal (oneOpen toySeal toyPacket2 [] []) (fun q tl ll => q = toyPacket2 ∧ tl = [] ∧ ll = []) := by
  intro pn aad ct pt h
  unfold oneOpen at h
  split at h
  · rename_i hc
    refine ⟨toyPacket2, [], [], ⟨rfl, rfl, rfl⟩, ⟨by decide, by decide, by decide, trivial⟩, trivial, hc.1, hc.2.1, ?_⟩
    exact (Option.some.inj h).symm
  · cases h

example : ((decodePublic (fun d => some (d.take 2, d.drop 2)) 16 false (toyPacket2.wire toySeal [] [])).toOption.map fun x =>
      x.1.decrypt { toyKeys 70000 with rx := fun v _ _ => some (v, oneOpen toySeal toyPacket2 [] []) }) =
    some (.ok (toyPacket2.contents .v1 none)) ∧
    ((decodePublic (fun d => some (d.take 2, d.drop 2)) 16 false ((toyPacket2.wire toySeal [] []).set 5 0)).toOption.map fun x =>
      x.1.decrypt { toyKeys 70000 with rx := fun v _ _ => some (v, oneOpen toySeal toyPacket2 [] []) }) =
    some (.error .decrypt) := by decide +kernel

/-- The same packets as in the example of `C73_datagram`, but the second is for another connection
ID: only the first is accepted. -/
example : inputLoop toyInput (fun d => some (d.take 2, d.drop 2)) 16 9 69990 none
    (toyPacket.wire toySeal [] (len2 21) ++ ({ toyPacket2 with head := .short [1, 3] true true } : Spec.Clear).wire toySeal [] []) =
    (70001, [toyPacket.contents .v2 none]) := by decide +kernel

end Neqo.Pkt
