import Verif.Packet.Auth

/-!
# C75: Retry and Version Negotiation packets
-/
namespace Neqo.Pkt.Spec
open Neqo.Codec (Bytes beBytes)
open Neqo.Pkt

/-- The two type bits of a Retry packet (RFC 9000 §17.2.5, RFC 9369 §3.2). -/
def retryCode : Version → Nat
  | .v2 => 0
  | _ => 3

/-- The first byte is that of a Retry packet: `1XTTXXXX`. -/
def RetryFirst (first : UInt8) (v : Version) : Prop := 128 ≤ first.toNat ∧ first.toNat / 16 % 4 = retryCode v

/-- A Retry packet without its integrity tag. -/
def retryHead (first : UInt8) (v : Version) (dcid scid token : Bytes) : Bytes :=
  first :: beBytes 4 v.wire ++ string1 dcid ++ string1 scid ++ token

/-- The Retry pseudo-packet, over which the tag is computed (RFC 9001 §5.8). -/
def pseudo (odcid : Bytes) (first : UInt8) (v : Version) (dcid scid token : Bytes) : Bytes :=
  string1 odcid ++ retryHead first v dcid scid token

/-- A Version Negotiation packet (RFC 9000 §17.2.1). -/
def vnWire (first : UInt8) (dcid scid : Bytes) (versions : List Nat) : Bytes :=
  first :: [0, 0, 0, 0] ++ string1 dcid ++ string1 scid ++ (versions.map (beBytes 4)).flatten

/-- A version that is reserved to exercise version negotiation: `0x?a?a?a?a`
(RFC 9000 §15). -/
def Reserved (v : Nat) : Prop :=
  v < 2 ^ 32 ∧ v % 16 = 10 ∧ v / 256 % 16 = 10 ∧ v / 256 ^ 2 % 16 = 10 ∧ v / 256 ^ 3 % 16 = 10

end Neqo.Pkt.Spec

namespace Neqo.Pkt
open Neqo.Codec (Bytes beBytes beVal)
open Spec

theorem retry_first (v : Version) (r : UInt8) :
    ∃ t, Ty.toByte .retry v = .ok t ∧ RetryFirst ((0xc0 : UInt8) ||| (t <<< 4) ||| (r &&& 0xf)) v ∧
      64 ≤ ((0xc0 : UInt8) ||| (t <<< 4) ||| (r &&& 0xf)).toNat % 128 := by
  unfold RetryFirst
  cases v
  all_goals
    refine ⟨_, rfl, ?_⟩
    revert r
    refine byte_forall _ ?_
    decide +kernel

/-- A Retry packet is written in the format of the specification, with the fixed bit set, and
with the integrity tag for the connection ID that the client sent to. -/
theorem C75_retry_written (tag : Bytes → Bytes) (v : Version) (dcid scid token odcid : Bytes) (r : UInt8) :
    ∃ first, RetryFirst first v ∧ 64 ≤ first.toNat % 128 ∧
      retry tag v dcid scid token odcid r =
        .ok (retryHead first v dcid scid token ++ tag (pseudo odcid first v dcid scid token)) := by
  obtain ⟨t, h1, h2, h3⟩ := retry_first v r
  refine ⟨_, h2, h3, ?_⟩
  simp [retry, h1, string1_eq, retryHead, pseudo, bind, Except.bind, pure, Except.pure]

example : retry (fun _ => List.replicate 16 7) .v1 [1, 2] [3] [4, 5] [6] 0xff =
    .ok ([0xff, 0, 0, 0, 1, 2, 1, 2, 1, 3, 4, 5] ++ List.replicate 16 7) := by decide

theorem retry_type (first : UInt8) (v : Version) :
    RetryFirst first v ↔ first &&& 0x80 ≠ 0 ∧ Ty.fromByte ((first >>> 4) &&& 3) v = .retry := by
  unfold RetryFirst
  cases v
  all_goals
    revert first
    refine byte_forall _ ?_
    decide +kernel

/-- How reading starts, for all packets with a long header. -/
theorem read_long_start (cid : Bytes → Option (Bytes × Bytes)) (exp : Nat) (other : Bool) (n : Nat) (scone : Option Nat)
    (first : UInt8) (hf : first &&& 0x80 ≠ 0) (w : Nat) (hw : w < 2 ^ 32) (dcid scid r : Bytes)
    (hd : dcid.length < 256) (hs : scid.length < 256) (data : Bytes)
    (hdata : data = first :: beBytes 4 w ++ string1 dcid ++ string1 scid ++ r) :
    decodeInner cid exp other (n + 1) scone data =
      (if w = 0 then
        .ok ({ ty := .versionNegotiation, dcid, scid := some scid, token := [],
               headerLen := data.length - r.length, version := none, data, scone }, [])
      else if w = scone1 ∨ w = scone2 then
        if scone.isSome then .error .invalid
        else decodeInner cid exp other n (some (sconeRate first w)) r
      else
        match Version.ofWire w with
        | none =>
          if other then
            .ok ({ ty := .otherVersion, dcid, scid := some scid, token := [],
                   headerLen := data.length - r.length, version := some w, data, scone }, [])
          else .error .invalid
        | some v =>
          if dcid.length > 20 ∨ scid.length > 20 then .error .invalid
          else do
            let ty := Ty.fromByte ((first >>> 4) &&& 3) v
            let (token, headerLen, d) ← decodeLong exp data r ty
            pure ({ ty, dcid, scid := some scid, token, headerLen, version := some v.wire,
                    data := data.take (data.length - d.length), scone }, d)) := by
  have e1 : Codec.decodeN 1 data = some (first.toNat, beBytes 4 w ++ string1 dcid ++ string1 scid ++ r) := by
    rw [hdata]
    simp [Codec.decodeN, beVal]
  have e2 : Codec.decodeN 4 (beBytes 4 w ++ string1 dcid ++ string1 scid ++ r) =
      some (w, string1 dcid ++ (string1 scid ++ r)) := by
    rw [show beBytes 4 w ++ string1 dcid ++ string1 scid ++ r = beBytes 4 w ++ (string1 dcid ++ (string1 scid ++ r)) by
      simp]
    rw [Codec.decodeN_beBytes (by decide) (by decide), Nat.mod_eq_of_lt (by omega)]
  conv => lhs; unfold decodeInner
  simp only [e1, opt, bind, Except.bind, UInt8.ofNat_toNat]
  rw [if_neg hf]
  simp only [e2, decodeVec1 dcid _ hd, decodeVec1 scid _ hs]
  rfl

theorem wire_lt (v : Version) : v.wire < 2 ^ 32 := by cases v <;> decide
theorem wire_ne_zero (v : Version) : v.wire ≠ 0 := by cases v <;> decide
theorem wire_not_scone (v : Version) : ¬ (v.wire = scone1 ∨ v.wire = scone2) := by cases v <;> decide
theorem wire_of (v : Version) : Version.ofWire v.wire = some v := by cases v <;> rfl

/-- Reading a Retry packet gives back what it was written with, and the test of its
integrity says whether the tag is the one for the connection ID that the client sent to. -/
theorem C75_retry_read (cid : Bytes → Option (Bytes × Bytes)) (exp : Nat) (other : Bool) (first : UInt8) (v : Version)
    (hf : RetryFirst first v) (dcid scid token tag : Bytes) (hd : dcid.length ≤ 20) (hs : scid.length ≤ 20)
    (ht : token ≠ []) (hl : tag.length = exp) :
    ∃ p, decodePublic cid exp other (retryHead first v dcid scid token ++ tag) = .ok (p, []) ∧
      p.ty = .retry ∧ p.version = some v.wire ∧ p.dcid = dcid ∧ p.scid = some scid ∧ p.token = token ∧
      ∀ tagOf odcid, p.isValidRetry exp tagOf odcid = true ↔ tagOf v (pseudo odcid first v dcid scid token) = tag := by
  obtain ⟨h1, h2⟩ := (retry_type first v).mp hf
  have e := read_long_start cid exp other 1 none first h1 v.wire (wire_lt v) dcid scid (token ++ tag) (by omega)
    (by omega) (retryHead first v dcid scid token ++ tag) (by simp [retryHead])
  rw [if_neg (wire_ne_zero v), if_neg (wire_not_scone v), wire_of] at e
  dsimp only at e
  rw [if_neg (by omega), h2] at e
  have e2 : decodeLong exp (retryHead first v dcid scid token ++ tag) (token ++ tag) .retry =
      .ok (token, (retryHead first v dcid scid token ++ tag).length - (token ++ tag).length, []) := by
    unfold decodeLong
    rw [if_pos rfl, if_neg (by simp [hl])]
    have hx : (token ++ tag).length - exp = token.length := by simp [hl]
    rw [hx, decode_exact _ _ _ rfl]
    simp only [opt, bind, Except.bind]
    rw [if_neg ht]
    have := decode_exact exp tag [] hl
    rw [List.append_nil] at this
    rw [this]
    rfl
  rw [e2] at e
  refine ⟨_, e, rfl, rfl, rfl, rfl, rfl, ?_⟩
  intro tagOf odcid
  unfold Public.isValidRetry
  rw [if_neg (by simp)]
  simp only [Public.version?, Option.bind, wire_of]
  have hlen : (retryHead first v dcid scid token ++ tag).length = (retryHead first v dcid scid token).length + exp := by
    simp [hl]
  simp only [List.length_nil, Nat.sub_zero, List.take_length]
  rw [if_neg (by
    have : 0 < (retryHead first v dcid scid token).length := by simp [retryHead]
    omega)]
  have h3 : (retryHead first v dcid scid token ++ tag).length - exp = (retryHead first v dcid scid token).length := by omega
  rw [h3, List.take_left', List.drop_left', string1_eq]
  · simp [pseudo]
  · rfl
  · rfl

theorem decodeInner_retry (cid : Bytes → Option (Bytes × Bytes)) (exp : Nat) (other : Bool) (n : Nat)
    (scone : Option Nat) (data : Bytes) (p : Public) (rest : Bytes)
    (h : decodeInner cid exp other n scone data = .ok (p, rest)) (hty : p.ty = .retry) :
    ∃ first v scid tag, RetryFirst first v ∧ p.version = some v.wire ∧ p.scid = some scid ∧ p.token ≠ [] ∧
      p.dcid.length ≤ 20 ∧ scid.length ≤ 20 ∧ tag.length = exp ∧
      p.data = retryHead first v p.dcid scid p.token ++ tag := by
  induction n generalizing scone data with
  | zero => cases h
  | succ n ih =>
    unfold decodeInner at h
    simp only [bind] at h
    obtain ⟨⟨first, d⟩, h1, h⟩ := Except.bind_eq_ok.mp h
    obtain ⟨y, hy, hd1⟩ : ∃ y : UInt8, UInt8.ofNat first = y ∧ data = y :: d := by
      obtain ⟨_, _, h3, rfl, rfl⟩ := Codec.decodeN_some.mp (opt_ok h1)
      cases data with
      | nil => simp at h3
      | cons y s => exact ⟨y, by simp [beVal], by simp⟩
    simp only [hy] at h
    by_cases hx : y &&& 0x80 = 0
    · rw [if_pos hx] at h
      obtain ⟨⟨dcid, d2⟩, h2, h⟩ := Except.bind_eq_ok.mp h
      split at h
      · cases h
      · simp only [pure, Except.pure, Except.ok.injEq, Prod.mk.injEq] at h
        obtain ⟨rfl, rfl⟩ := h
        cases hty
    · rw [if_neg hx] at h
      obtain ⟨⟨version, d2⟩, h2, h⟩ := Except.bind_eq_ok.mp h
      obtain ⟨⟨dcid, d3⟩, h3, h⟩ := Except.bind_eq_ok.mp h
      obtain ⟨⟨scid, d4⟩, h4, h⟩ := Except.bind_eq_ok.mp h
      obtain ⟨e2, hv32⟩ := decodeN4_split (opt_ok h2)
      obtain ⟨e3, hdl⟩ := decodeVec1_split (opt_ok h3)
      obtain ⟨e4, hsl⟩ := decodeVec1_split (opt_ok h4)
      have hdata : data = y :: (beBytes 4 version ++ Spec.string1 dcid ++ Spec.string1 scid ++ d4) := by
        simp only at e3 e4
        rw [hd1, e2, e3, e4]; simp
      simp only at h
      split at h
      · simp only [pure, Except.pure, Except.ok.injEq, Prod.mk.injEq] at h
        obtain ⟨rfl, rfl⟩ := h
        cases hty
      split at h
      · split at h
        · cases h
        · exact ih _ _ h
      split at h
      · split at h
        · simp only [pure, Except.pure, Except.ok.injEq, Prod.mk.injEq] at h
          obtain ⟨rfl, rfl⟩ := h
          cases hty
        · cases h
      rename_i v hv
      split at h
      · cases h
      rename_i h20
      obtain ⟨⟨token, headerLen, d5⟩, h5, h⟩ := Except.bind_eq_ok.mp h
      simp only [pure, Except.pure, Except.ok.injEq, Prod.mk.injEq] at h
      obtain ⟨rfl, rfl⟩ := h
      have hvw := ofWire_some hv
      subst hvw
      dsimp only at hty
      unfold decodeLong at h5
      rw [if_pos hty] at h5
      split at h5
      · cases h5
      · next hlt =>
        obtain ⟨⟨tok, d6⟩, h6, h5⟩ := Except.bind_eq_ok.mp h5
        simp only at h5
        split at h5
        · cases h5
        · next htok =>
          obtain ⟨⟨tg, d7⟩, h7, h5⟩ := Except.bind_eq_ok.mp h5
          simp only [pure, Except.pure, Except.ok.injEq, Prod.mk.injEq] at h5
          obtain ⟨rfl, rfl, rfl⟩ := h5
          have e6 := Codec.decode_sound (opt_ok h6)
          have e7 := Codec.decode_sound (opt_ok h7)
          have hsplit : data = (y :: (beBytes 4 v.wire ++ Spec.string1 dcid ++ Spec.string1 scid ++ tok ++ tg)) ++ d7 := by
            rw [hdata, e6.1, e7.1]; simp
          have htk : data.take (data.length - d7.length) =
              y :: (beBytes 4 v.wire ++ Spec.string1 dcid ++ Spec.string1 scid ++ tok ++ tg) := by
            rw [hsplit, List.length_append, Nat.add_sub_cancel, List.take_left']; rfl
          refine ⟨y, v, scid, tg, (retry_type y v).mpr ⟨hx, hty⟩, rfl, rfl, htok, ?_, ?_, e7.2, ?_⟩
          · show dcid.length ≤ 20; omega
          · omega
          · simp only [htk]; simp [retryHead]

/-- Whatever arrives: what is taken as a valid Retry packet in answer to a packet to `odcid`
has the format of the specification, its token is not empty, and its tag is the one for
`odcid` and all the fields. -/
theorem C75_retry_genuine (cid : Bytes → Option (Bytes × Bytes)) (exp : Nat) (other : Bool) (data : Bytes)
    (p : Public) (rest : Bytes) (h : decodePublic cid exp other data = .ok (p, rest)) (tagOf : Version → Bytes → Bytes) (odcid : Bytes)
    (hv : p.isValidRetry exp tagOf odcid = true) :
    ∃ first v scid, RetryFirst first v ∧ p.version = some v.wire ∧ p.scid = some scid ∧ p.token ≠ [] ∧
      p.dcid.length ≤ 20 ∧ scid.length ≤ 20 ∧
      p.data = retryHead first v p.dcid scid p.token ++ tagOf v (pseudo odcid first v p.dcid scid p.token) := by
  unfold Public.isValidRetry at hv
  by_cases hty : p.ty = .retry
  · rw [if_neg (by simp [hty])] at hv
    obtain ⟨first, v, scid, tag, h1, h2, h3, h4, h5, h6, h7, h8⟩ := decodeInner_retry cid exp other 2 none data p rest h hty
    refine ⟨first, v, scid, h1, h2, h3, h4, h5, h6, ?_⟩
    simp only [Public.version?, h2, Option.bind, wire_of] at hv
    by_cases hl : p.data.length ≤ exp
    · rw [if_pos hl] at hv; cases hv
    rw [if_neg hl] at hv
    have hlen : p.data.length - exp = (retryHead first v p.dcid scid p.token).length := by
      rw [h8]; simp [h7]
    rw [hlen] at hv
    have e1 : p.data.take (retryHead first v p.dcid scid p.token).length = retryHead first v p.dcid scid p.token := by
      rw [h8, List.take_left' rfl]
    have e2 : p.data.drop (retryHead first v p.dcid scid p.token).length = tag := by
      rw [h8, List.drop_left' rfl]
    rw [e1, e2, string1_eq] at hv
    have hv' := of_decide_eq_true hv
    rw [pseudo, hv']
    exact h8
  · rw [if_pos hty] at hv; cases hv

/-- A Version Negotiation packet is written in the format of the specification.  It lists the
versions that the server has, and one more, which is reserved, and which is neither the one
that the client used nor one that anybody knows. -/
theorem C75_negotiation_written (dcid scid : Bytes) (cv : Nat) (vs : List Version) (g0 g1 g2 g3 : UInt8) :
    ∃ first g, 128 ≤ first.toNat ∧ Reserved g ∧ g ≠ cv ∧ (∀ v : Version, g ≠ v.wire) ∧
      versionNegotiation dcid scid cv vs g0 g1 g2 g3 = vnWire first dcid scid (vs.map Version.wire ++ [g]) := by
  have hb : ∀ g : UInt8, (g &&& 0xf0 ||| 0x0a).toNat % 16 = 10 := by
    refine byte_forall _ ?_
    decide +kernel
  have hl : (UInt8.ofNat ((cv + 0x10) % 2 ^ 32 &&& 0xf0) ||| 0x0a).toNat % 16 = 10 ∧
      (UInt8.ofNat ((cv + 0x10) % 2 ^ 32 &&& 0xf0) ||| 0x0a).toNat ≠ cv % 256 := by
    have e1 : (cv + 0x10) % 2 ^ 32 &&& 0xf0 = ((cv % 256 + 16) % 256) &&& 0xf0 := by
      apply Nat.eq_of_testBit_eq
      intro i
      simp only [Nat.testBit_and]
      by_cases hi : i < 8
      · congr 1
        have : ∀ x, Nat.testBit (x % 256) i = Nat.testBit x i := by
          intro x
          rw [show (256 : Nat) = 2 ^ 8 from rfl, Nat.testBit_mod_two_pow]
          simp [hi]
        rw [this, Nat.testBit_mod_two_pow]
        have h32 : i < 32 := by omega
        simp only [h32, decide_true, Bool.true_and]
        rw [← this (cv + 16), ← this (cv % 256 + 16)]
        congr 1
        omega
      · have : Nat.testBit 0xf0 i = false := by
          apply Nat.testBit_lt_two_pow
          calc 0xf0 < 2 ^ 8 := by decide
            _ ≤ 2 ^ i := Nat.pow_le_pow_right (by decide) (by omega)
        rw [this]
        simp
    rw [e1]
    have : ∀ x : Fin 256, (UInt8.ofNat ((x.1 + 16) % 256 &&& 0xf0) ||| 0x0a).toNat % 16 = 10 ∧
        (UInt8.ofNat ((x.1 + 16) % 256 &&& 0xf0) ||| 0x0a).toNat ≠ x.1 := by decide +kernel
    exact this ⟨cv % 256, Nat.mod_lt _ (by decide)⟩
  generalize hl3 : (UInt8.ofNat ((cv + 0x10) % 2 ^ 32 &&& 0xf0) ||| 0x0a) = l3 at hl
  have h0 := hb g0
  have h1 := hb g1
  have h2 := hb g2
  generalize hl0 : (g0 &&& 0xf0 ||| 0x0a) = l0 at h0
  generalize hl1 : (g1 &&& 0xf0 ||| 0x0a) = l1 at h1
  generalize hl2 : (g2 &&& 0xf0 ||| 0x0a) = l2 at h2
  have hval : beVal [l0, l1, l2, l3] = ((l0.toNat * 256 + l1.toNat) * 256 + l2.toNat) * 256 + l3.toNat := by
    simp [beVal]
    omega
  have b0 := l0.toNat_lt
  have b1 := l1.toNat_lt
  have b2 := l2.toNat_lt
  have b3 := l3.toNat_lt
  refine ⟨0x80 ||| (g3 &&& 0x7f), beVal [l0, l1, l2, l3], ?_, ?_, ?_, ?_, ?_⟩
  · revert g3
    intro g3
    clear hl3
    revert g3
    refine byte_forall _ ?_
    decide +kernel
  · rw [hval]
    refine ⟨?_, ?_, ?_, ?_, ?_⟩ <;> omega
  · rw [hval]
    intro he
    apply hl.2
    rw [← he]
    omega
  · intro v
    rw [hval]
    have : v.wire % 2 = 1 := by cases v <;> decide
    omega
  · have e : beBytes 4 (beVal [l0, l1, l2, l3]) = [l0, l1, l2, l3] := beBytes_beVal [l0, l1, l2, l3]
    unfold versionNegotiation
    rw [hl0, hl1, hl2, hl3]
    simp [vnWire, string1_eq, e]
    rfl

theorem versionsFrom_wires (vs : List Nat) (h : ∀ v ∈ vs, v < 2 ^ 32) (n : Nat) (hn : vs.length < n) :
    versionsFrom n (vs.map (beBytes 4)).flatten = .ok vs := by
  induction vs generalizing n with
  | nil =>
    obtain ⟨n, rfl⟩ : ∃ m, n = m + 1 := ⟨n - 1, by omega⟩
    rfl
  | cons v vs ih =>
    obtain ⟨n, rfl⟩ : ∃ m, n = m + 1 := ⟨n - 1, by omega⟩
    unfold versionsFrom
    have hv := h v List.mem_cons_self
    have hne : ((v :: vs).map (beBytes 4)).flatten ≠ [] := by
      intro he
      have := congrArg List.length he
      simp at this
    rw [if_neg hne]
    simp only [List.map_cons, List.flatten_cons]
    rw [Codec.decodeN_beBytes (by decide) (by decide), Nat.mod_eq_of_lt (by omega)]
    dsimp only
    rw [ih (fun x hx => h x (List.mem_cons_of_mem _ hx)) n (by simp at hn; omega)]

/-- Reading a Version Negotiation packet gives back the connection IDs, of whatever length,
and the list of versions. -/
theorem C75_negotiation_read (cid : Bytes → Option (Bytes × Bytes)) (exp : Nat) (other : Bool) (first : UInt8)
    (hf : 128 ≤ first.toNat) (dcid scid : Bytes) (hd : dcid.length < 256) (hs : scid.length < 256)
    (vs : List Nat) (hv : ∀ v ∈ vs, v < 2 ^ 32) :
    ∃ p, decodePublic cid exp other (vnWire first dcid scid vs) = .ok (p, []) ∧
      p.ty = .versionNegotiation ∧ p.dcid = dcid ∧ p.scid = some scid ∧ p.supportedVersions = .ok vs := by
  have hf' : first &&& 0x80 ≠ 0 := by
    revert first
    refine byte_forall _ ?_
    decide +kernel
  have e := read_long_start cid exp other 1 none first hf' 0 (by decide) dcid scid (vs.map (beBytes 4)).flatten hd hs
    (vnWire first dcid scid vs) (by simp [vnWire]; rfl)
  rw [if_pos rfl] at e
  refine ⟨_, e, rfl, rfl, rfl, ?_⟩
  unfold Public.supportedVersions
  rw [if_neg (by simp)]
  dsimp only
  have hlen : (vnWire first dcid scid vs).length =
      (first :: [0, 0, 0, 0] ++ string1 dcid ++ string1 scid).length + (vs.map (beBytes 4)).flatten.length := by
    rw [vnWire, List.length_append]
  rw [hlen, Nat.add_sub_cancel]
  have hdrop : (vnWire first dcid scid vs).drop (first :: [0, 0, 0, 0] ++ string1 dcid ++ string1 scid).length =
      (vs.map (beBytes 4)).flatten := by
    rw [vnWire, List.drop_left' rfl]
  rw [hdrop]
  apply versionsFrom_wires vs hv
  have : vs.length ≤ (vs.map (beBytes 4)).flatten.length := by
    clear hlen hdrop hv e
    induction vs with
    | nil => simp
    | cons v vs ih => simp at ih ⊢; omega
  omega

theorem versionsFrom_total (d : Bytes) (n : Nat) (hn : d.length < n) : versionsFrom n d ≠ .error .panic := by
  induction n generalizing d with
  | zero => omega
  | succ n ih =>
    unfold versionsFrom
    split
    · simp
    · cases hd : Codec.decodeN 4 d with
      | none => simp
      | some x =>
        obtain ⟨v, d'⟩ := x
        dsimp only
        obtain ⟨e, _⟩ := decodeN4_split hd
        have : d'.length < n := by
          have := congrArg List.length e
          simp at this
          omega
        have k := ih d' this
        cases hx : versionsFrom n d' with
        | error e => rw [hx] at k; intro he; cases he; exact k rfl
        | ok vs => simp

/-- Reading the list of versions never panics, whatever arrived. -/
theorem C75_versions_total (p : Public) : p.supportedVersions ≠ .error .panic := by
  unfold Public.supportedVersions
  split
  · simp
  · refine versionsFrom_total _ _ ?_
    rw [List.length_drop]
    omega

/-! ## Examples -/

/-- A Retry packet that was written is read and valid for the right connection ID only. -/
example :
    let tagOf : Version → Bytes → Bytes := fun _ x => (x ++ List.replicate 16 0).take 16
    (match retry (tagOf .v2) .v2 [1, 2] [3] [4, 5] [6] 0xff with
      | .ok bs =>
        match decodePublic (fun _ => none) 16 false bs with
        | .ok (p, rest) => p.isValidRetry 16 tagOf [6] && !p.isValidRetry 16 tagOf [7] && rest == []
        | .error _ => false
      | .error _ => false) = true := by decide +kernel

example :
    (match decodePublic (fun _ => none) 16 false (versionNegotiation [1] [2] 0x5a5a5a5a [.v2, .v1] 1 2 3 4) with
      | .ok (p, _) => decide (p.supportedVersions = .ok [0x6b3343cf, 1, 0x0a0a0a6a])
      | .error _ => false) = true := by decide +kernel

end Neqo.Pkt
