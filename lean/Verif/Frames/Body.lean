import Verif.Frames.Lemmas

/-! Reading the frame after its type. -/
namespace Neqo.Frm
open Neqo.Codec

/-- The bytes `b` are the fields of a form of `f` with type `t`, and `r`. -/
def BodyIs (t : FType) (b : Bytes) (f : Frame) (r : Bytes) : Prop :=
  f.Valid ∧ f.Before r ∧ ∃ l, (l = f.layout ∨ some l = f.layoutNoOffset) ∧ l.1 = t.code ∧
    ∃ x, Fields l.2 x ∧ b = x ++ r

theorem decodeEcn_ok {ecn : Bool} {b r : Bytes} {c : Option (Nat × Nat × Nat)} :
    decodeEcn ecn b = .ok (c, r) ↔ c.isSome = ecn ∧ ∃ e, Fields (match c with
       | some (ect0, ect1, ce) => [.var ect0, .var ect1, .var ce]
       | none => []) e ∧ b = e ++ r := by
  unfold decodeEcn
  cases ecn with
  | false =>
    rw [if_neg (by simp)]
    constructor
    · intro h; cases h; exact ⟨rfl, [], rfl, rfl⟩
    · rintro ⟨h1, e, h2, rfl⟩
      cases c with
      | none => cases h2; rfl
      | some _ => cases h1
  | true =>
    rw [if_pos rfl]
    simp only [Except.bind_eq_ok, Except.pure_eq_ok]
    constructor
    · rintro ⟨⟨x, b1⟩, h1, ⟨y, b2⟩, h2, ⟨z, b3⟩, h3, h4⟩
      cases h4
      obtain ⟨e1, he1, rfl⟩ := dv_ok.mp h1
      obtain ⟨e2, he2, rfl⟩ := dv_ok.mp h2
      obtain ⟨e3, he3, rfl⟩ := dv_ok.mp h3
      exact ⟨rfl, _, ⟨e1, _, he1, ⟨e2, _, he2, ⟨e3, _, he3, rfl, rfl⟩, rfl⟩, rfl⟩, by simp⟩
    · rintro ⟨h1, e, h2, rfl⟩
      cases c with
      | none => cases h1
      | some c =>
        obtain ⟨x, y, z⟩ := c
        obtain ⟨e1, _, he1, ⟨e2, _, he2, ⟨e3, _, he3, rfl, rfl⟩, rfl⟩, rfl⟩ := h2
        simp only [List.append_assoc]
        exact ⟨_, dv_enc he1 _, _, dv_enc he2 _, _, dv_enc he3 _, rfl⟩

theorem ack_dec {ecn : Bool} {b r : Bytes} {f : Frame} (h : decodeAckFrame ecn b = .ok (f, r)) :
    BodyIs (if ecn then .ackEcn else .ack) b f r := by
  unfold decodeAckFrame at h
  simp only [Except.bind_eq_ok, Except.pure_eq_ok] at h
  obtain ⟨⟨la, b1⟩, h1, ⟨ad, b2⟩, h2, ⟨nr, b3⟩, h3, h⟩ := h
  simp only at h
  split at h
  · rename_i hn
    simp only [Except.bind_eq_ok, Except.pure_eq_ok] at h
    obtain ⟨⟨fa, b4⟩, h4, ⟨rs, b5⟩, h5, ⟨c, b6⟩, h6, h7⟩ := h
    cases h7
    obtain ⟨e1, he1, rfl⟩ := dv_ok.mp h1
    obtain ⟨e2, he2, rfl⟩ := dv_ok.mp h2
    obtain ⟨e3, he3, rfl⟩ := dv_ok.mp h3
    obtain ⟨e4, he4, rfl⟩ := dv_ok.mp h4
    obtain ⟨rfl, e5, he5, rfl⟩ := decodeAckRanges_ok.mp h5
    obtain ⟨rfl, e6, he6, rfl⟩ := decodeEcn_ok.mp h6
    refine ⟨hn, trivial, _, Or.inl rfl, ?_, _, fields_append.mpr ⟨_, _, fields_append.mpr
      ⟨_, _, ⟨e1, _, he1, ⟨e2, _, he2, ⟨e3, _, he3, ⟨e4, _, he4, rfl, rfl⟩, rfl⟩, rfl⟩, rfl⟩, he5, rfl⟩, he6, rfl⟩, by simp⟩
    cases c <;> rfl
  · cases h

theorem ack_enc {la ad fa : Nat} {rs : List (Nat × Nat)} {c : Option (Nat × Nat × Nat)} {x r : Bytes}
    (hv : rs.length < 32768) (hx : Fields (Frame.ack la ad fa rs c).layout.2 x) :
    decodeAckFrame c.isSome (x ++ r) = .ok (.ack la ad fa rs c, r) := by
  unfold Frame.layout at hx
  dsimp only at hx
  rw [fields_append] at hx
  obtain ⟨y, e6, hy, he6, rfl⟩ := hx
  obtain ⟨z, e5, hz, he5, rfl⟩ := fields_append.mp hy
  obtain ⟨e1, _, he1, ⟨e2, _, he2, ⟨e3, _, he3, ⟨e4, _, he4, rfl, rfl⟩, rfl⟩, rfl⟩, rfl⟩ := hz
  unfold decodeAckFrame
  simp only [Except.bind_eq_ok, Except.pure_eq_ok, List.append_assoc, List.nil_append]
  refine ⟨_, dv_enc he1 _, _, dv_enc he2 _, _, dv_enc he3 _, ?_⟩
  dsimp only
  rw [if_pos (show rs.length < maxAckRangeCount from hv)]
  simp only [Except.bind_eq_ok, Except.pure_eq_ok]
  exact ⟨_, dv_enc he4 _, _, decodeAckRanges_ok.mpr ⟨rfl, _, he5, rfl⟩, _,
    decodeEcn_ok.mpr ⟨rfl, _, he6, rfl⟩, rfl⟩

/-- The field for data (`decodeData`). -/
theorem data_ok {fill : Bool} {b x r : Bytes} :
    decodeData fill b = .ok (x, r) ↔ (fill = true → r = []) ∧
      ∃ e, (if fill then Field.raw x else Field.counted x).Is e ∧ b = e ++ r := by
  unfold decodeData
  cases fill with
  | true =>
    rw [if_pos rfl, if_pos rfl]
    simp only [Field.Is, Except.ok.injEq, Prod.mk.injEq]
    constructor
    · rintro ⟨rfl, rfl⟩; exact ⟨fun _ => rfl, _, rfl, by simp⟩
    · rintro ⟨h, e, rfl, rfl⟩; rw [h trivial]; simp
  | false =>
    rw [if_neg (by simp), counted_ok]
    simp

theorem body_dec {t : FType} {b r : Bytes} {f : Frame} (h : decodeBody t b = .ok (f, r)) : BodyIs t b f r := by
  cases t <;> simp only [decodeBody, Except.bind_eq_ok, Except.pure_eq_ok] at h
  case padding =>
    split at h
    · rename_i hn
      cases h
      obtain ⟨h1, h2⟩ := skip_eq (v := 0) b
      refine ⟨⟨by omega, by omega⟩, h2, _, Or.inl rfl, rfl, List.replicate (skipWhile 0 b).1 0,
        ⟨List.replicate (skipWhile 0 b).1 0, [], ?_, rfl, by simp⟩, h1⟩
      rw [Nat.add_sub_cancel_left]; rfl
    · cases h
  case ping => cases h; exact ⟨trivial, trivial, _, Or.inl rfl, rfl, [], rfl, rfl⟩
  case ack => exact ack_dec h
  case ackEcn => exact ack_dec h
  case resetStream =>
    obtain ⟨⟨_, _⟩, h1, ⟨_, _⟩, h2, ⟨_, _⟩, h3, h⟩ := h
    cases h
    obtain ⟨e1, he1, rfl⟩ := dv_ok.mp h1
    obtain ⟨e2, he2, rfl⟩ := dv_ok.mp h2
    obtain ⟨e3, he3, rfl⟩ := dv_ok.mp h3
    exact ⟨trivial, trivial, _, Or.inl rfl, rfl, _,
      ⟨e1, _, he1, ⟨e2, _, he2, ⟨e3, _, he3, rfl, rfl⟩, rfl⟩, rfl⟩, by simp⟩
  case resetStreamAt =>
    obtain ⟨⟨_, _⟩, h1, ⟨_, _⟩, h2, ⟨_, _⟩, h3, ⟨_, _⟩, h4, h⟩ := h
    dsimp only at h
    split at h
    · cases h
    · cases h
      obtain ⟨e1, he1, rfl⟩ := dv_ok.mp h1
      obtain ⟨e2, he2, rfl⟩ := dv_ok.mp h2
      obtain ⟨e3, he3, rfl⟩ := dv_ok.mp h3
      obtain ⟨e4, he4, rfl⟩ := dv_ok.mp h4
      exact ⟨Nat.le_of_not_gt ‹_›, trivial, _, Or.inl rfl, rfl, _,
        ⟨e1, _, he1, ⟨e2, _, he2, ⟨e3, _, he3, ⟨e4, _, he4, rfl, rfl⟩, rfl⟩, rfl⟩, rfl⟩, by simp⟩
  case stopSending =>
    obtain ⟨⟨_, _⟩, h1, ⟨_, _⟩, h2, h⟩ := h
    cases h
    obtain ⟨e1, he1, rfl⟩ := dv_ok.mp h1
    obtain ⟨e2, he2, rfl⟩ := dv_ok.mp h2
    exact ⟨trivial, trivial, _, Or.inl rfl, rfl, _, ⟨e1, _, he1, ⟨e2, _, he2, rfl, rfl⟩, rfl⟩, by simp⟩
  case crypto =>
    obtain ⟨⟨off, _⟩, h1, ⟨dat, _⟩, h2, h⟩ := h
    dsimp only at h
    split at h
    · cases h
    · rename_i hn
      cases h
      obtain ⟨e1, he1, rfl⟩ := dv_ok.mp h1
      obtain ⟨e2, he2, rfl⟩ := counted_ok.mp h2
      refine ⟨?_, trivial, _, Or.inl rfl, rfl, _, ⟨e1, _, he1, ⟨e2, _, he2, rfl, rfl⟩, rfl⟩, by simp⟩
      show off + dat.length < 2 ^ 62
      unfold maxVarint at hn; omega
  case newToken =>
    obtain ⟨⟨_, _⟩, h1, h⟩ := h
    dsimp only at h
    split at h
    · cases h
    · rename_i hn
      cases h
      obtain ⟨e1, he1, rfl⟩ := counted_ok.mp h1
      exact ⟨hn, trivial, _, Or.inl rfl, rfl, _, ⟨e1, _, he1, rfl, rfl⟩, by simp⟩
  case stream hasOff hasLen fin =>
    obtain ⟨⟨id, _⟩, h1, ⟨off, b2⟩, h2, ⟨dat, _⟩, h3, h⟩ := h
    dsimp only at h h2
    split at h
    · cases h
    · rename_i hn
      cases h
      obtain ⟨e1, he1, rfl⟩ := dv_ok.mp h1
      obtain ⟨hf, e3, he3, rfl⟩ := data_ok.mp h3
      have hv : off + dat.length < 2 ^ 62 := by unfold maxVarint at hn; omega
      have hb : (Frame.stream id off dat fin (!hasLen)).Before r := by
        cases hasLen
        · exact hf rfl
        · trivial
      refine ⟨hv, hb, ?_⟩
      cases hasOff with
      | false =>
        cases h2
        refine ⟨_, Or.inr rfl, ?_, _, ⟨e1, _, he1, ⟨e3, _, he3, rfl, rfl⟩, rfl⟩, by simp⟩
        cases hasLen <;> cases fin <;> rfl
      | true =>
        obtain ⟨e2, he2, rfl⟩ := dv_ok.mp (show dv _ = _ from h2)
        refine ⟨_, Or.inl rfl, ?_, _, ⟨e1, _, he1, ⟨e2, _, he2, ⟨e3, _, he3, rfl, rfl⟩, rfl⟩, rfl⟩, by simp⟩
        cases hasLen <;> cases fin <;> rfl
  case maxData =>
    obtain ⟨⟨_, _⟩, h1, h⟩ := h
    cases h
    obtain ⟨e1, he1, rfl⟩ := dv_ok.mp h1
    exact ⟨trivial, trivial, _, Or.inl rfl, rfl, _, ⟨e1, _, he1, rfl, rfl⟩, by simp⟩
  case maxStreamData =>
    obtain ⟨⟨_, _⟩, h1, ⟨_, _⟩, h2, h⟩ := h
    cases h
    obtain ⟨e1, he1, rfl⟩ := dv_ok.mp h1
    obtain ⟨e2, he2, rfl⟩ := dv_ok.mp h2
    exact ⟨trivial, trivial, _, Or.inl rfl, rfl, _, ⟨e1, _, he1, ⟨e2, _, he2, rfl, rfl⟩, rfl⟩, by simp⟩
  case maxStreams uni =>
    obtain ⟨⟨_, _⟩, h1, h⟩ := h
    dsimp only at h
    split at h
    · cases h
    · cases h
      obtain ⟨e1, he1, rfl⟩ := dv_ok.mp h1
      exact ⟨Nat.le_of_not_gt ‹_›, trivial, _, Or.inl rfl, by cases uni <;> rfl, _, ⟨e1, _, he1, rfl, rfl⟩, by simp⟩
  case dataBlocked =>
    obtain ⟨⟨_, _⟩, h1, h⟩ := h
    cases h
    obtain ⟨e1, he1, rfl⟩ := dv_ok.mp h1
    exact ⟨trivial, trivial, _, Or.inl rfl, rfl, _, ⟨e1, _, he1, rfl, rfl⟩, by simp⟩
  case streamDataBlocked =>
    obtain ⟨⟨_, _⟩, h1, ⟨_, _⟩, h2, h⟩ := h
    cases h
    obtain ⟨e1, he1, rfl⟩ := dv_ok.mp h1
    obtain ⟨e2, he2, rfl⟩ := dv_ok.mp h2
    exact ⟨trivial, trivial, _, Or.inl rfl, rfl, _, ⟨e1, _, he1, ⟨e2, _, he2, rfl, rfl⟩, rfl⟩, by simp⟩
  case streamsBlocked uni =>
    obtain ⟨⟨_, _⟩, h1, h⟩ := h
    dsimp only at h
    split at h
    · cases h
    · cases h
      obtain ⟨e1, he1, rfl⟩ := dv_ok.mp h1
      exact ⟨Nat.le_of_not_gt ‹_›, trivial, _, Or.inl rfl, by cases uni <;> rfl, _, ⟨e1, _, he1, rfl, rfl⟩, by simp⟩
  case newConnectionId =>
    obtain ⟨⟨seq, _⟩, h1, ⟨retire, _⟩, h2, h⟩ := h
    dsimp only at h
    split at h
    · cases h
    · rename_i hr
      simp only [Except.bind_eq_ok, Except.pure_eq_ok] at h
      obtain ⟨⟨cid, _⟩, h3, h⟩ := h
      dsimp only at h
      split at h
      · cases h
      · rename_i hc
        simp only [Except.bind_eq_ok, Except.pure_eq_ok] at h
        obtain ⟨⟨tok, _⟩, h4, h⟩ := h
        cases h
        obtain ⟨e1, he1, rfl⟩ := dv_ok.mp h1
        obtain ⟨e2, he2, rfl⟩ := dv_ok.mp h2
        obtain ⟨e3, he3, rfl⟩ := short_ok.mp h3
        obtain ⟨ht, rfl⟩ := raw_ok.mp h4
        simp only [not_or] at hc
        exact ⟨⟨Nat.le_of_not_gt hr, List.length_pos_iff.mpr hc.1, Nat.le_of_not_gt hc.2, ht⟩, trivial, _, Or.inl rfl, rfl, _,
          ⟨e1, _, he1, ⟨e2, _, he2, ⟨e3, _, he3, ⟨_, _, rfl, rfl, rfl⟩, rfl⟩, rfl⟩, rfl⟩, by simp⟩
  case retireConnectionId =>
    obtain ⟨⟨_, _⟩, h1, h⟩ := h
    cases h
    obtain ⟨e1, he1, rfl⟩ := dv_ok.mp h1
    exact ⟨trivial, trivial, _, Or.inl rfl, rfl, _, ⟨e1, _, he1, rfl, rfl⟩, by simp⟩
  case pathChallenge =>
    obtain ⟨⟨_, _⟩, h1, h⟩ := h
    cases h
    obtain ⟨hl, rfl⟩ := raw_ok.mp h1
    exact ⟨hl, trivial, _, Or.inl rfl, rfl, _, ⟨_, _, rfl, rfl, rfl⟩, by simp⟩
  case pathResponse =>
    obtain ⟨⟨_, _⟩, h1, h⟩ := h
    cases h
    obtain ⟨hl, rfl⟩ := raw_ok.mp h1
    exact ⟨hl, trivial, _, Or.inl rfl, rfl, _, ⟨_, _, rfl, rfl, rfl⟩, by simp⟩
  case connectionClose app =>
    obtain ⟨⟨code, _⟩, h1, ⟨ft, _⟩, h2, ⟨rs, _⟩, h3, h⟩ := h
    cases h
    obtain ⟨e1, he1, rfl⟩ := dv_ok.mp h1
    obtain ⟨e3, he3, rfl⟩ := counted_ok.mp h3
    cases app with
    | true =>
      cases h2
      exact ⟨fun _ => rfl, trivial, _, Or.inl rfl, rfl, _, ⟨e1, _, he1, ⟨e3, _, he3, rfl, rfl⟩, rfl⟩, by simp⟩
    | false =>
      obtain ⟨e2, he2, rfl⟩ := dv_ok.mp h2
      exact ⟨(fun h => by cases h), trivial, _, Or.inl rfl, rfl, _,
        ⟨e1, _, he1, ⟨e2, _, he2, ⟨e3, _, he3, rfl, rfl⟩, rfl⟩, rfl⟩, by simp⟩
  case handshakeDone => cases h; exact ⟨trivial, trivial, _, Or.inl rfl, rfl, [], rfl, rfl⟩
  case ackFrequency =>
    obtain ⟨⟨seq, _⟩, h1, ⟨tol, _⟩, h2, h⟩ := h
    dsimp only at h
    split at h
    · cases h
    · rename_i ht
      simp only [Except.bind_eq_ok, Except.pure_eq_ok] at h
      obtain ⟨⟨del, _⟩, h3, ⟨ign, b4⟩, h4, h⟩ := h
      dsimp only at h
      obtain ⟨e1, he1, rfl⟩ := dv_ok.mp h1
      obtain ⟨e2, he2, rfl⟩ := dv_ok.mp h2
      obtain ⟨e3, he3, rfl⟩ := dv_ok.mp h3
      obtain ⟨x, rfl, rfl⟩ := byte_ok.mp h4
      split at h
      · rename_i hx
        cases h
        have : x = 0 := UInt8.toNat.inj hx
        subst this
        exact ⟨ht, trivial, _, Or.inl rfl, rfl, _,
          ⟨e1, _, he1, ⟨e2, _, he2, ⟨e3, _, he3, ⟨_, _, rfl, rfl, rfl⟩, rfl⟩, rfl⟩, rfl⟩, by simp⟩
      · split at h
        · rename_i hx
          cases h
          have : x = 1 := UInt8.toNat.inj hx
          subst this
          exact ⟨ht, trivial, _, Or.inl rfl, rfl, _,
            ⟨e1, _, he1, ⟨e2, _, he2, ⟨e3, _, he3, ⟨_, _, rfl, rfl, rfl⟩, rfl⟩, rfl⟩, rfl⟩, by simp⟩
        · cases h
  case datagram hasLen =>
    obtain ⟨⟨dat, _⟩, h1, h⟩ := h
    cases h
    obtain ⟨hf, e1, he1, rfl⟩ := data_ok.mp h1
    refine ⟨trivial, ?_, _, Or.inl rfl, by cases hasLen <;> rfl, _, ⟨e1, _, he1, rfl, rfl⟩, by simp⟩
    cases hasLen
    · exact hf rfl
    · trivial

theorem code_inj {t t' : FType} (h : t.code = t'.code) : t = t' := by
  have h1 := ofCode_ok (n := t.code) (t := t)
  have h2 := ofCode_ok (n := t.code) (t := t')
  have := (h1.mpr rfl).symm.trans (h2.mpr h.symm)
  cases this
  rfl

/-- The type to be read for a form of the frame, and that reading it gives the frame. -/
def BodyOk (c : Nat) (x : Bytes) (f : Frame) (r : Bytes) : Prop :=
  ∃ t : FType, t.code = c ∧ decodeBody t (x ++ r) = .ok (f, r)

theorem body_noOff {id : Nat} {dat : Bytes} {fin fill : Bool} {x r : Bytes} (hv : dat.length < 2 ^ 62)
    (hb : fill = true → r = []) (hx : Fields [.var id, if fill then .raw dat else .counted dat] x) :
    BodyOk (0x08 + (if fill then 0 else 2) + (if fin then 1 else 0)) x (.stream id 0 dat fin fill) r := by
  obtain ⟨e1, _, he1, ⟨e3, _, he3, rfl, rfl⟩, rfl⟩ := hx
  refine ⟨.stream false (!fill) fin, by cases fill <;> cases fin <;> rfl, ?_⟩
  simp only [decodeBody, Except.bind_eq_ok, Except.pure_eq_ok, List.append_assoc, List.nil_append, Bool.not_not]
  refine ⟨_, dv_enc he1 _, (0, e3 ++ r), rfl, _, data_ok.mpr ⟨hb, e3, he3, rfl⟩, ?_⟩
  dsimp only
  rw [if_neg (by unfold maxVarint; omega)]
  rfl

theorem body_off {id off : Nat} {dat : Bytes} {fin fill : Bool} {x r : Bytes} (hv : off + dat.length < 2 ^ 62)
    (hb : fill = true → r = []) (hx : Fields [.var id, .var off, if fill then .raw dat else .counted dat] x) :
    BodyOk (0x08 + 4 + (if fill then 0 else 2) + (if fin then 1 else 0)) x (.stream id off dat fin fill) r := by
  obtain ⟨e1, _, he1, ⟨e2, _, he2, ⟨e3, _, he3, rfl, rfl⟩, rfl⟩, rfl⟩ := hx
  refine ⟨.stream true (!fill) fin, by cases fill <;> cases fin <;> rfl, ?_⟩
  simp only [decodeBody, Except.bind_eq_ok, Except.pure_eq_ok, List.append_assoc, List.nil_append, Bool.not_not, if_true]
  refine ⟨_, dv_enc he1 _, _, dv_enc he2 _, _, data_ok.mpr ⟨hb, e3, he3, rfl⟩, ?_⟩
  dsimp only
  rw [if_neg (by unfold maxVarint; omega)]
  rfl

theorem body_enc {f : Frame} {l : Nat × List Field} {x r : Bytes} (hl : l = f.layout ∨ some l = f.layoutNoOffset)
    (hv : f.Valid) (hb : f.Before r) (hx : Fields l.2 x) : BodyOk l.1 x f r := by
  rcases hl with rfl | hl
  · cases f with
    | padding n =>
      obtain ⟨_, _, rfl, rfl, rfl⟩ := hx
      refine ⟨.padding, rfl, ?_⟩
      simp only [decodeBody, List.append_nil, skip_rep _ hb]
      obtain ⟨h1, h2⟩ : 1 ≤ n ∧ n < 65536 := hv
      rw [show 1 + (n - 1) = n by omega, if_pos (by omega)]
    | ping => cases hx; exact ⟨.ping, rfl, rfl⟩
    | ack la ad fa rs c =>
      refine ⟨if c.isSome then .ackEcn else .ack, by cases c <;> rfl, ?_⟩
      have := ack_enc hv hx (r := r)
      cases c <;> exact this
    | resetStream id err final =>
      obtain ⟨e1, _, he1, ⟨e2, _, he2, ⟨e3, _, he3, rfl, rfl⟩, rfl⟩, rfl⟩ := hx
      refine ⟨.resetStream, rfl, ?_⟩
      simp only [decodeBody, Except.bind_eq_ok, Except.pure_eq_ok, List.append_assoc, List.nil_append]
      exact ⟨_, dv_enc he1 _, _, dv_enc he2 _, _, dv_enc he3 _, rfl⟩
    | resetStreamAt id err final rel =>
      obtain ⟨e1, _, he1, ⟨e2, _, he2, ⟨e3, _, he3, ⟨e4, _, he4, rfl, rfl⟩, rfl⟩, rfl⟩, rfl⟩ := hx
      refine ⟨.resetStreamAt, rfl, ?_⟩
      simp only [decodeBody, Except.bind_eq_ok, Except.pure_eq_ok, List.append_assoc, List.nil_append]
      refine ⟨_, dv_enc he1 _, _, dv_enc he2 _, _, dv_enc he3 _, _, dv_enc he4 _, ?_⟩
      dsimp only
      rw [if_neg (Nat.not_lt.mpr hv)]
      rfl
    | stopSending id err =>
      obtain ⟨e1, _, he1, ⟨e2, _, he2, rfl, rfl⟩, rfl⟩ := hx
      refine ⟨.stopSending, rfl, ?_⟩
      simp only [decodeBody, Except.bind_eq_ok, Except.pure_eq_ok, List.append_assoc, List.nil_append]
      exact ⟨_, dv_enc he1 _, _, dv_enc he2 _, rfl⟩
    | crypto off dat =>
      obtain ⟨e1, _, he1, ⟨e2, _, he2, rfl, rfl⟩, rfl⟩ := hx
      refine ⟨.crypto, rfl, ?_⟩
      simp only [decodeBody, Except.bind_eq_ok, Except.pure_eq_ok, List.append_assoc, List.nil_append]
      refine ⟨_, dv_enc he1 _, _, counted_ok.mpr ⟨_, he2, rfl⟩, ?_⟩
      dsimp only
      rw [if_neg (by have : off + dat.length < 2 ^ 62 := hv; unfold maxVarint; omega)]
      rfl
    | newToken tok =>
      obtain ⟨e1, _, he1, rfl, rfl⟩ := hx
      refine ⟨.newToken, rfl, ?_⟩
      simp only [decodeBody, Except.bind_eq_ok, Except.pure_eq_ok, List.append_assoc, List.nil_append]
      refine ⟨_, counted_ok.mpr ⟨_, he1, rfl⟩, ?_⟩
      dsimp only
      rw [if_neg hv]
      rfl
    | stream id off dat fin fill =>
      refine body_off hv ?_ hx
      rintro rfl
      exact hb
    | maxData m =>
      obtain ⟨e1, _, he1, rfl, rfl⟩ := hx
      refine ⟨.maxData, rfl, ?_⟩
      simp only [decodeBody, Except.bind_eq_ok, Except.pure_eq_ok, List.append_assoc, List.nil_append]
      exact ⟨_, dv_enc he1 _, rfl⟩
    | maxStreamData id m =>
      obtain ⟨e1, _, he1, ⟨e2, _, he2, rfl, rfl⟩, rfl⟩ := hx
      refine ⟨.maxStreamData, rfl, ?_⟩
      simp only [decodeBody, Except.bind_eq_ok, Except.pure_eq_ok, List.append_assoc, List.nil_append]
      exact ⟨_, dv_enc he1 _, _, dv_enc he2 _, rfl⟩
    | maxStreams uni m =>
      obtain ⟨e1, _, he1, rfl, rfl⟩ := hx
      refine ⟨.maxStreams uni, by cases uni <;> rfl, ?_⟩
      simp only [decodeBody, Except.bind_eq_ok, Except.pure_eq_ok, List.append_assoc, List.nil_append]
      refine ⟨_, dv_enc he1 _, ?_⟩
      dsimp only
      rw [if_neg (Nat.not_lt.mpr hv)]
      rfl
    | dataBlocked m =>
      obtain ⟨e1, _, he1, rfl, rfl⟩ := hx
      refine ⟨.dataBlocked, rfl, ?_⟩
      simp only [decodeBody, Except.bind_eq_ok, Except.pure_eq_ok, List.append_assoc, List.nil_append]
      exact ⟨_, dv_enc he1 _, rfl⟩
    | streamDataBlocked id m =>
      obtain ⟨e1, _, he1, ⟨e2, _, he2, rfl, rfl⟩, rfl⟩ := hx
      refine ⟨.streamDataBlocked, rfl, ?_⟩
      simp only [decodeBody, Except.bind_eq_ok, Except.pure_eq_ok, List.append_assoc, List.nil_append]
      exact ⟨_, dv_enc he1 _, _, dv_enc he2 _, rfl⟩
    | streamsBlocked uni m =>
      obtain ⟨e1, _, he1, rfl, rfl⟩ := hx
      refine ⟨.streamsBlocked uni, by cases uni <;> rfl, ?_⟩
      simp only [decodeBody, Except.bind_eq_ok, Except.pure_eq_ok, List.append_assoc, List.nil_append]
      refine ⟨_, dv_enc he1 _, ?_⟩
      dsimp only
      rw [if_neg (Nat.not_lt.mpr hv)]
      rfl
    | newConnectionId seq retire cid tok =>
      obtain ⟨h1, h2, h3, h4⟩ : retire ≤ seq ∧ 1 ≤ cid.length ∧ cid.length ≤ 20 ∧ tok.length = 16 := hv
      obtain ⟨e1, _, he1, ⟨e2, _, he2, ⟨e3, _, he3, ⟨_, _, rfl, rfl, rfl⟩, rfl⟩, rfl⟩, rfl⟩ := hx
      refine ⟨.newConnectionId, rfl, ?_⟩
      simp only [decodeBody, Except.bind_eq_ok, Except.pure_eq_ok, List.append_assoc, List.nil_append]
      refine ⟨_, dv_enc he1 _, _, dv_enc he2 _, ?_⟩
      dsimp only
      rw [if_neg (by omega)]
      simp only [Except.bind_eq_ok, Except.pure_eq_ok]
      refine ⟨_, short_ok.mpr ⟨_, he3, rfl⟩, ?_⟩
      dsimp only
      rw [if_neg (by rintro (rfl | h); · simp at h2
                     · unfold maxCidLen at h; omega)]
      simp only [Except.bind_eq_ok, Except.pure_eq_ok]
      exact ⟨_, raw_ok.mpr ⟨h4, rfl⟩, rfl⟩
    | retireConnectionId m =>
      obtain ⟨e1, _, he1, rfl, rfl⟩ := hx
      refine ⟨.retireConnectionId, rfl, ?_⟩
      simp only [decodeBody, Except.bind_eq_ok, Except.pure_eq_ok, List.append_assoc, List.nil_append]
      exact ⟨_, dv_enc he1 _, rfl⟩
    | pathChallenge m =>
      obtain ⟨_, _, rfl, rfl, rfl⟩ := hx
      refine ⟨.pathChallenge, rfl, ?_⟩
      simp only [decodeBody, Except.bind_eq_ok, Except.pure_eq_ok, List.append_assoc, List.nil_append]
      exact ⟨_, raw_ok.mpr ⟨hv, rfl⟩, rfl⟩
    | pathResponse m =>
      obtain ⟨_, _, rfl, rfl, rfl⟩ := hx
      refine ⟨.pathResponse, rfl, ?_⟩
      simp only [decodeBody, Except.bind_eq_ok, Except.pure_eq_ok, List.append_assoc, List.nil_append]
      exact ⟨_, raw_ok.mpr ⟨hv, rfl⟩, rfl⟩
    | connectionClose app code ft rs =>
      cases app with
      | true =>
        have hft : ft = 0 := hv rfl
        subst hft
        obtain ⟨e1, _, he1, ⟨e2, _, he2, rfl, rfl⟩, rfl⟩ := hx
        refine ⟨.connectionClose true, rfl, ?_⟩
        simp only [decodeBody, Except.bind_eq_ok, Except.pure_eq_ok, List.append_assoc, List.nil_append, if_true]
        exact ⟨_, dv_enc he1 _, _, rfl, _, counted_ok.mpr ⟨_, he2, rfl⟩, rfl⟩
      | false =>
        obtain ⟨e1, _, he1, ⟨e2, _, he2, ⟨e3, _, he3, rfl, rfl⟩, rfl⟩, rfl⟩ := hx
        refine ⟨.connectionClose false, rfl, ?_⟩
        simp only [decodeBody, Except.bind_eq_ok, Except.pure_eq_ok, List.append_assoc, List.nil_append]
        exact ⟨_, dv_enc he1 _, _, dv_enc he2 _, _, counted_ok.mpr ⟨_, he3, rfl⟩, rfl⟩
    | handshakeDone => cases hx; exact ⟨.handshakeDone, rfl, rfl⟩
    | ackFrequency seq tol del ign =>
      obtain ⟨e1, _, he1, ⟨e2, _, he2, ⟨e3, _, he3, ⟨_, _, rfl, rfl, rfl⟩, rfl⟩, rfl⟩, rfl⟩ := hx
      refine ⟨.ackFrequency, rfl, ?_⟩
      simp only [decodeBody, Except.bind_eq_ok, Except.pure_eq_ok, List.append_assoc, List.nil_append]
      refine ⟨_, dv_enc he1 _, _, dv_enc he2 _, ?_⟩
      dsimp only
      rw [if_neg hv]
      simp only [Except.bind_eq_ok, Except.pure_eq_ok]
      refine ⟨_, dv_enc he3 _, _, byte_ok.mpr ⟨_, rfl, rfl⟩, ?_⟩
      cases ign <;> rfl
    | datagram dat fill =>
      obtain ⟨e1, _, he1, rfl, rfl⟩ := hx
      refine ⟨.datagram (!fill), by cases fill <;> rfl, ?_⟩
      simp only [decodeBody, Except.bind_eq_ok, Except.pure_eq_ok, List.append_assoc, List.nil_append, Bool.not_not]
      refine ⟨_, data_ok.mpr ⟨?_, e1, he1, rfl⟩, rfl⟩
      rintro rfl
      exact hb
  · cases f with
    | stream id off dat fin fill =>
      cases off with
      | zero =>
        cases hl
        refine body_noOff (by simpa [Frame.Valid] using hv) ?_ hx
        rintro rfl
        exact hb
      | succ _ => cases hl
    | _ => cases hl

theorem body_iff {t : FType} {b r : Bytes} {f : Frame} : decodeBody t b = .ok (f, r) ↔ BodyIs t b f r := by
  refine ⟨body_dec, ?_⟩
  rintro ⟨hv, hb, l, hl, hc, x, hx, rfl⟩
  obtain ⟨t', h1, h2⟩ := body_enc hl hv hb hx
  rw [code_inj (h1.trans hc)] at h2
  exact h2

end Neqo.Frm
