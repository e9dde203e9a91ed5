import Verif.Token.Spec
import Mathlib.Tactic.NormNum

/-!
# C77: tokens prove that a client can receive packets at its address
-/
namespace Neqo.Av
open Neqo.Codec (Bytes beBytes beVal)
open Spec

theorem ip_inj {a b : Ip} {x y : Bytes} (ha : match a with | .v4 o => o.length = 4 | .v6 o => o.length = 16)
    (hb : match b with | .v4 o => o.length = 4 | .v6 o => o.length = 16) (h : a.bytes ++ x = b.bytes ++ y) :
    a = b ∧ x = y := by
  cases a <;> cases b <;> simp only [Ip.bytes, List.cons_append, List.cons.injEq] at h ha hb
  · obtain ⟨h1, h2⟩ := List.append_inj h.2 (by omega)
    exact ⟨by rw [h1], h2⟩
  · exact absurd h.1 (by decide)
  · exact absurd h.1 (by decide)
  · obtain ⟨h1, h2⟩ := List.append_inj h.2 (by omega)
    exact ⟨by rw [h1], h2⟩

theorem beBytes2_inj {a b : Nat} (ha : a < 65536) (hb : b < 65536) (h : beBytes 2 a = beBytes 2 b) : a = b := by
  have h1 := Codec.decodeN_beBytes (n := 2) (by decide) (by decide) a []
  have h2 := Codec.decodeN_beBytes (n := 2) (by decide) (by decide) b []
  rw [h, h2] at h1
  simp at h1
  omega

/-- Different addresses, or tokens for different uses, have different associated data. -/
theorem aad_inj {p q : Addr} {r s : Bool} (hp : Addr.Ok p) (hq : Addr.Ok q) (h : encodeAad p r = encodeAad q s) :
    r = s ∧ p.ip = q.ip ∧ (r = true → p = q) := by
  unfold encodeAad at h
  cases r <;> cases s
  · simp only [Bool.false_eq_true, if_false, List.append_nil] at h
    have h' := List.append_cancel_left h
    have := ip_inj (x := []) (y := []) hp.1 hq.1 (by simpa using h')
    exact ⟨rfl, this.1, by simp⟩
  · simp [idRetry, idNewToken] at h
  · simp [idRetry, idNewToken] at h
  · simp only [if_true, List.append_assoc] at h
    have h' := List.append_cancel_left h
    obtain ⟨h1, h2⟩ := ip_inj hp.1 hq.1 h'
    have h3 := beBytes2_inj hp.2 hq.2 h2
    refine ⟨rfl, h1, fun _ => ?_⟩
    cases p; cases q; simp_all

theorem exp_retry : expiration true = 5 * second := by simp [expiration, second]
theorem exp_new : expiration false = 24 * 60 * 60 * second := by simp [expiration, second]

theorem mod_ok {x : Nat} (h : x < 4294967296) : x < 256 ^ 4 := by
  have : (256 : Nat) ^ 4 = 4294967296 := by norm_num
  rw [this]; exact h

theorem floor_ok {s t e n : Nat} (hs : s ≤ t) (hn : n + 999999 ≤ t + e) : ¬ s + (t + e - s) / 1000000 * 1000000 < n := by
  omega

theorem tokenData_some {a : Av} {dcid : Option Bytes} {time : Nat} {data : Bytes} (h : a.tokenData dcid time = some data) :
    ∃ ms, a.endMillis dcid.isSome time = some ms ∧ data = beBytes 4 ms ++ dcid.getD [] := by
  unfold Av.tokenData at h
  cases he : a.endMillis dcid.isSome time with
  | none => rw [he] at h; cases h
  | some ms =>
    rw [he] at h
    cases h
    exact ⟨ms, rfl, rfl⟩

theorem endMillis_some {a : Av} {r : Bool} {time ms : Nat} (h : a.endMillis r time = some ms) :
    ms < 4294967296 ∧ ms = (time + expiration r - a.start) / 1000000 := by
  unfold Av.endMillis at h
  simp only [Option.ite_none_right_eq_some, Option.some.injEq] at h
  rw [← h.2]
  exact ⟨h.1, rfl⟩

/-- What the plaintext of a token says. -/
theorem decrypt_sound {a : Av} {c : Cipher} {issued : List Issue} (hc : Authentic a c issued)
    (hi : ∀ i ∈ issued, i.Ok a) {token : Bytes} {peer : Addr} (hp : Addr.Ok peer) {retry : Bool} {now : Nat} {cid : Bytes}
    (h : a.decrypt c token peer retry now = some cid) :
    ∃ i ∈ issued, i.dcid.isSome = retry ∧ i.dcid.getD [] = cid ∧ i.peer.ip = peer.ip ∧ (retry = true → i.peer = peer) ∧
      now ≤ i.time + expiration retry := by
  unfold Av.decrypt at h
  cases h1 : c.dec (encodeAad peer retry) token with
  | none => rw [h1] at h; cases h
  | some data =>
  rw [h1] at h
  dsimp only at h
  cases h2 : Codec.decodeN 4 data with
  | none => rw [h2] at h; cases h
  | some x =>
  obtain ⟨d, rest⟩ := x
  rw [h2] at h
  dsimp only at h
  have h3 : ¬ a.start + d * 1000000 < now ∧ rest = cid := by
    unfold Av.unexpired at h
    split at h
    · cases h
    · next hx => cases h; exact ⟨hx, rfl⟩
  obtain ⟨i, hm, ha, hd⟩ := hc _ _ _ h1
  obtain ⟨e1, e2, e3⟩ := aad_inj (hi i hm).peer hp ha
  refine ⟨i, hm, e1, ?_⟩
  obtain ⟨ms, g1, g2⟩ := tokenData_some hd
  obtain ⟨g3, g4⟩ := endMillis_some g1
  rw [g2, Codec.decodeN_beBytes (by decide) (by decide), Nat.mod_eq_of_lt (mod_ok g3)] at h2
  simp only [Option.some.injEq, Prod.mk.injEq] at h2
  refine ⟨h2.2.trans h3.2, e2, fun hr => e3 (by rw [e1]; exact hr), ?_⟩
  have h0 := (hi i hm).time
  rw [e1] at g4
  have hb : ms * 1000000 ≤ i.time + expiration retry - a.start := by rw [g4]; exact Nat.div_mul_le_self _ _
  rw [← h2.1] at h3
  have := h3.1
  omega

/-- A token that is taken for one from a Retry packet was made by this server for this very
address and port, not more than five seconds ago, and gives the connection ID that the client
sent its first packet to. -/
theorem C77_retry_token_genuine {a : Av} {c : Cipher} {issued : List Issue} (hc : Authentic a c issued)
    (hi : ∀ i ∈ issued, i.Ok a) (token : Bytes) (peer : Addr) (hp : Addr.Ok peer) (now : Nat) (cid : Bytes)
    (h : a.validate c token peer now = .validRetry cid) :
    ∃ i ∈ issued, i.dcid = some cid ∧ i.peer = peer ∧ now ≤ i.time + 5 * second := by
  unfold Av.validate at h
  split at h
  · split at h <;> cases h
  split at h
  · cases h
  dsimp only at h
  cases hd : a.decrypt c (token.drop 5) peer (likelyRetry token) now with
  | none =>
    rw [hd] at h
    dsimp only at h
    split at h
    · cases h
    · split at h <;> cases h
  | some x =>
    rw [hd] at h
    dsimp only at h
    obtain ⟨i, hm, h1, h2, _, h4, h5⟩ := decrypt_sound hc hi hp hd
    split at h
    · next hr =>
      split at h
      · cases h
        rw [hr] at h1 h5
        have hx : i.dcid = some cid := by
          cases hx : i.dcid with
          | none => rw [hx] at h1; cases h1
          | some y => rw [hx] at h2; rw [← h2]; rfl
        exact ⟨i, hm, hx, h4 hr, by rw [exp_retry] at h5; exact h5⟩
      · cases h
    · split at h
      · split at h <;> cases h
      · cases h

/-- If the server does not ask for validation of every address, an address is accepted without
a Retry only if the server does not validate addresses at all, or if the token is one from a
NEW_TOKEN frame that this server made for the same IP address not more than a day ago. -/
theorem C77_pass_genuine {a : Av} {c : Cipher} {issued : List Issue} (hc : Authentic a c issued)
    (hi : ∀ i ∈ issued, i.Ok a) (token : Bytes) (peer : Addr) (hp : Addr.Ok peer) (now : Nat)
    (h : a.validate c token peer now = .pass) :
    a.validation = .never ∨
      a.validation = .noToken ∧
        ∃ i ∈ issued, i.dcid = none ∧ i.peer.ip = peer.ip ∧ now ≤ i.time + 24 * 60 * 60 * second := by
  unfold Av.validate at h
  split at h
  · split at h
    · next hv => exact .inl hv
    · cases h
  split at h
  · cases h
  dsimp only at h
  cases hd : a.decrypt c (token.drop 5) peer (likelyRetry token) now with
  | none =>
    rw [hd] at h
    dsimp only at h
    split at h
    · cases h
    · split at h
      · next hv => exact .inl hv
      · cases h
  | some x =>
    rw [hd] at h
    dsimp only at h
    obtain ⟨i, hm, h1, h2, h3, h4, h5⟩ := decrypt_sound hc hi hp hd
    split at h
    · split at h <;> cases h
    · next hr =>
      have hr' : likelyRetry token = false := by simpa using hr
      split at h
      · split at h
        · cases h
        · next hv =>
          rw [hr'] at h1 h5
          cases hva : a.validation with
          | never => exact .inl rfl
          | always => exact absurd hva hv
          | noToken =>
            refine .inr ⟨rfl, i, hm, ?_, h3, by rw [exp_new] at h5; exact h5⟩
            cases hx : i.dcid with
            | none => rfl
            | some y => rw [hx] at h1; cases h1
      · cases h

/-- No token makes the server panic. -/
theorem C77_no_panic {a : Av} {c : Cipher} {issued : List Issue} (hc : Authentic a c issued)
    (hi : ∀ i ∈ issued, i.Ok a) (token : Bytes) (peer : Addr) (hp : Addr.Ok peer) (now : Nat) :
    a.validate c token peer now ≠ .panic := by
  intro h
  unfold Av.validate at h
  split at h
  · split at h <;> cases h
  split at h
  · cases h
  dsimp only at h
  cases hd : a.decrypt c (token.drop 5) peer (likelyRetry token) now with
  | none =>
    rw [hd] at h
    dsimp only at h
    split at h
    · cases h
    · split at h <;> cases h
  | some x =>
    rw [hd] at h
    dsimp only at h
    obtain ⟨i, hm, h1, h2, h3, h4, h5⟩ := decrypt_sound hc hi hp hd
    split at h
    · next hr =>
      split at h
      · cases h
      · next hl =>
        rw [hr] at h1
        cases hx : i.dcid with
        | none => rw [hx] at h1; cases h1
        | some y =>
          have := (hi i hm).cid y hx
          rw [hx] at h2
          apply hl
          rw [← h2]
          exact this
    · next hr =>
      have hr' : likelyRetry token = false := by simpa using hr
      split at h
      · split at h <;> cases h
      · next hne =>
        rw [hr'] at h1
        cases hx : i.dcid with
        | none => rw [hx] at h2; exact hne h2.symm
        | some y => rw [hx] at h1; cases h1

/-- The number of bits in which two sequences of bytes differ. -/
def bitsApart : Bytes → Bytes → Nat
  | a :: as, b :: bs => ((List.range 8).filter fun i => a.toNat.testBit i != b.toNat.testBit i).length + bitsApart as bs
  | _, _ => 0

theorem ones_xor (a b : UInt8) :
    ones (a ^^^ b) = ((List.range 8).filter fun i => a.toNat.testBit i != b.toNat.testBit i).length := by
  unfold ones
  generalize List.range 8 = l
  induction l with
  | nil => rfl
  | cons i l ih =>
    rw [List.map_cons, List.sum_cons, ih, List.filter_cons, UInt8.toNat_xor, Nat.testBit_xor]
    cases hx : (a.toNat.testBit i ^^ b.toNat.testBit i) <;>
      cases ha : a.toNat.testBit i <;> cases hb : b.toNat.testBit i <;> simp_all [Nat.add_comm]

theorem likelyRetry_iff (token : Bytes) : likelyRetry token = true ↔ bitsApart token idRetry < 5 := by
  have : ∀ (a b : Bytes), (List.zipWith (fun a b => ones (a ^^^ b)) a b).sum = bitsApart a b := by
    intro a
    induction a with
    | nil => intro b; cases b <;> rfl
    | cons x a ih =>
      intro b
      cases b with
      | nil => rfl
      | cons y b =>
        simp only [List.zipWith_cons_cons, List.sum_cons, bitsApart]
        rw [ones_xor, ih]
  unfold likelyRetry
  rw [this]
  simp

/-- A token that is not one from a Retry packet, and not such a token with fewer than five bits of its mark damaged,
does not make the server refuse the connection, whatever is in it. -/
theorem C77_foreign_token_tolerated {a : Av} {c : Cipher} {token : Bytes} {peer : Addr} {now : Nat}
    (hl : 5 < token.length) (hd : 5 ≤ bitsApart token [0x52, 0x65, 0x74, 0x72, 0x79]) :
    a.validate c token peer now ≠ .invalid ∧
    (a.validation = .never → a.decrypt c (token.drop 5) peer false now = none → a.validate c token peer now = .pass) := by
  have hn : likelyRetry token = false := by
    cases h : likelyRetry token with
    | false => rfl
    | true =>
      have := (likelyRetry_iff token).mp h
      have e : idRetry = [0x52, 0x65, 0x74, 0x72, 0x79] := by decide
      rw [e] at this; omega
  have he : token ≠ [] := by rintro rfl; simp at hl
  unfold Av.validate
  rw [if_neg he, if_neg (by omega), hn]
  dsimp only
  constructor
  · cases a.decrypt c (token.drop 5) peer false now with
    | none =>
      simp only [Bool.false_eq_true, if_false]
      split <;> simp
    | some cid =>
      simp only [Bool.false_eq_true, if_false]
      repeat' split
      all_goals simp
  · intro hv hdn
    rw [hdn]
    simp [hv]

/-- A damaged token from a Retry packet is refused. -/
theorem C77_damaged_retry_refused {a : Av} {c : Cipher} {token : Bytes} {peer : Addr} {now : Nat}
    (hl : 5 < token.length) (hd : bitsApart token [0x52, 0x65, 0x74, 0x72, 0x79] < 5)
    (hn : a.decrypt c (token.drop 5) peer true now = none) : a.validate c token peer now = .invalid := by
  have e : idRetry = [0x52, 0x65, 0x74, 0x72, 0x79] := by decide
  have hy : likelyRetry token = true := (likelyRetry_iff token).mpr (by rw [e]; exact hd)
  have he : token ≠ [] := by rintro rfl; simp at hl
  unfold Av.validate
  rw [if_neg he, if_neg (by omega), hy]
  dsimp only
  rw [hn]
  simp

example : bitsApart [0x53, 0x65, 0x74, 0x72, 0x79, 1, 2] [0x52, 0x65, 0x74, 0x72, 0x79] = 1 := by decide
example : bitsApart [0x13, 0x37, 0x74, 0x72, 0x79, 1, 2] [0x52, 0x65, 0x74, 0x72, 0x79] = 5 := by decide

theorem likely_retry (x : Bytes) : likelyRetry (idRetry ++ x) = true := by
  have : (List.zipWith (fun a b => ones (a ^^^ b)) (idRetry ++ x) idRetry) = [0, 0, 0, 0, 0] := by
    simp [idRetry, List.zipWith]
    decide
  rw [likelyRetry, this]
  rfl

theorem likely_new (x : Bytes) : likelyRetry (idNewToken ++ x) = false := by
  have : (List.zipWith (fun a b => ones (a ^^^ b)) (idNewToken ++ x) idRetry) = [8, 8, 8, 8, 8] := by
    simp [idRetry, idNewToken, List.zipWith]
    decide
  rw [likelyRetry, this]
  rfl

theorem aad_take (p : Addr) (r : Bool) : (encodeAad p r).take 5 = if r then idRetry else idNewToken := by
  cases r <;> simp [encodeAad, idRetry, idNewToken]

theorem decrypt_complete {a : Av} {c : Cipher} (hc : Correct c) {dcid : Option Bytes} {peer : Addr} {time rand now : Nat}
    {data : Bytes} (hd : a.tokenData dcid time = some data) (hs : a.start ≤ time)
    (hn : now + 999999 ≤ time + expiration dcid.isSome) :
    a.decrypt c (c.enc rand (encodeAad peer dcid.isSome) data) peer dcid.isSome now = some (dcid.getD []) := by
  obtain ⟨ms, h1, h2⟩ := tokenData_some hd
  obtain ⟨h3, h4⟩ := endMillis_some h1
  have h5 : ¬ a.start + ms * 1000000 < now := by rw [h4]; exact floor_ok hs hn
  have h6 : Codec.decodeN 4 data = some (ms, dcid.getD []) := by
    rw [h2, Codec.decodeN_beBytes (by decide) (by decide), Nat.mod_eq_of_lt (mod_ok h3)]
  have h7 : a.unexpired ms (dcid.getD []) now = some (dcid.getD []) := if_neg h5
  unfold Av.decrypt
  rw [hc.dec]
  simp only [h6, h7]

/-- A token from a Retry packet that comes back from the same address within five seconds (less
one millisecond) is accepted, and gives the connection ID back. -/
theorem C77_retry_token_accepted (a : Av) (c : Cipher) (hc : Correct c) (cid : Bytes) (h8 : 8 ≤ cid.length) (peer : Addr)
    (time rand : Nat) (hs : a.start ≤ time) (token : Bytes) (h : a.generate c (some cid) peer time rand = some token)
    (now : Nat) (hn : now + 999999 ≤ time + 5 * second) :
    a.validate c token peer now = .validRetry cid := by
  unfold Av.generate at h
  cases hd : a.tokenData (some cid) time with
  | none => rw [hd] at h; cases h
  | some data =>
    rw [hd] at h
    simp only [Option.map_some, Option.some.injEq, aad_take] at h
    simp only [Option.isSome_some, if_true] at h
    have hx := decrypt_complete (rand := rand) (peer := peer) hc hd hs
      (by simp only [Option.isSome_some, exp_retry]; exact hn)
    simp only [Option.isSome_some, Option.getD_some] at hx
    have hne : 0 < (c.enc rand (encodeAad peer true) data).length := List.length_pos_iff.mpr (hc.ne _ _ _)
    unfold Av.validate
    rw [if_neg (by rw [← h]; simp [idRetry]), if_neg (by rw [← h]; simp [idRetry, hc.ne])]
    have hl : likelyRetry token = true := by rw [← h]; exact likely_retry _
    have hdrop : token.drop 5 = c.enc rand (encodeAad peer true) data := by
      rw [← h]; exact List.drop_left' rfl
    simp only [hl, hdrop, hx]
    rw [if_pos trivial, if_pos h8]

/-- A token from a NEW_TOKEN frame that comes back from the same IP address, from whatever port,
within a day (less one millisecond) is accepted, unless the server wants to validate every
address again. -/
theorem C77_new_token_accepted (a : Av) (c : Cipher) (hc : Correct c) (peer peer' : Addr) (hip : peer'.ip = peer.ip)
    (time rand : Nat) (hs : a.start ≤ time) (token : Bytes) (h : a.generate c none peer time rand = some token)
    (now : Nat) (hn : now + 999999 ≤ time + 24 * 60 * 60 * second) :
    a.validate c token peer' now = if a.validation = .always then .validate else .pass := by
  unfold Av.generate at h
  cases hd : a.tokenData none time with
  | none => rw [hd] at h; cases h
  | some data =>
    rw [hd] at h
    simp only [Option.map_some, Option.some.injEq, aad_take] at h
    simp only [Option.isSome_none, Bool.false_eq_true, if_false] at h
    have hx := decrypt_complete (rand := rand) (peer := peer) hc hd hs
      (by simp only [Option.isSome_none, exp_new]; exact hn)
    simp only [Option.isSome_none, Option.getD_none] at hx
    have haad : encodeAad peer' false = encodeAad peer false := by simp [encodeAad, hip]
    have hx' : a.decrypt c (c.enc rand (encodeAad peer false) data) peer' false now = some [] := by
      unfold Av.decrypt at hx ⊢
      rw [haad]
      exact hx
    unfold Av.validate
    rw [if_neg (by rw [← h]; simp [idNewToken]), if_neg (by rw [← h]; simp [idNewToken, hc.ne])]
    have hl : likelyRetry token = false := by rw [← h]; exact likely_new _
    have hdrop : token.drop 5 = c.enc rand (encodeAad peer false) data := by
      rw [← h]; exact List.drop_left' rfl
    simp only [hl, hdrop, hx']
    rw [if_neg (by simp), if_pos trivial]

/-- The server can make tokens for Retry packets during its first 49 days. -/
theorem C77_token_made (a : Av) (c : Cipher) (dcid : Option Bytes) (peer : Addr) (time rand : Nat)
    (h : time < a.start + 48 * 24 * 60 * 60 * second) : (a.generate c dcid peer time rand).isSome := by
  unfold Av.generate Av.tokenData Av.endMillis
  dsimp only
  rw [if_pos]
  · rfl
  · have h1 : expiration dcid.isSome ≤ 24 * 60 * 60 * 1000000000 := by
      cases dcid <;> simp [expiration]
    unfold second at h
    rw [Nat.div_lt_iff_lt_mul (by decide)]
    omega

/-- But a server that has been running for 50 days can make no more tokens: it drops the
first packet of every client whose address it wants to validate. -/
theorem C77_no_tokens_after_50_days (a : Av) (c : Cipher) (dcid : Option Bytes) (peer : Addr) (time rand : Nat)
    (h : a.start + 50 * 24 * 60 * 60 * second ≤ time) : a.generate c dcid peer time rand = none := by
  unfold Av.generate Av.tokenData Av.endMillis
  dsimp only
  rw [if_neg]
  · rfl
  · unfold second at h
    rw [Nat.div_lt_iff_lt_mul (by decide)]
    omega

def exAv : Av := ⟨.noToken, 1000⟩
def exPeer : Addr := ⟨.v4 [10, 0, 0, 1], 443⟩
def exCid : Bytes := [1, 2, 3, 4, 5, 6, 7, 8]

/-- A cipher that puts the associated data after the plaintext. -/
def exCipher : Cipher where
  enc _ aad pt := 0 :: pt ++ aad
  dec aad ct := if 1 + aad.length ≤ ct.length then some ((ct.drop 1).take (ct.length - 1 - aad.length)) else none

example : Correct exCipher := by
  constructor
  · intro r aad pt
    unfold exCipher
    dsimp only
    rw [if_pos (by simp; omega)]
    simp
  · intro r aad pt
    simp [exCipher]

/-- A cipher that opens only the token of one Retry, as if from another server. -/
def exOne : Cipher where
  enc _ _ _ := [9, 9]
  dec aad ct := if aad = encodeAad exPeer true ∧ ct = [9, 9] then exAv.tokenData (some exCid) 2000 else none

example : Authentic exAv exOne [⟨some exCid, exPeer, 2000⟩] ∧ (⟨some exCid, exPeer, 2000⟩ : Issue).Ok exAv ∧ Addr.Ok exPeer ∧
    exAv.validate exOne (idRetry ++ [9, 9]) exPeer 4000 = .validRetry exCid ∧
    exAv.validate exOne (idRetry ++ [9, 9]) exPeer 6000000000 = .invalid ∧
    exAv.validate exOne (idRetry ++ [9, 9]) { exPeer with port := 444 } 4000 = .invalid ∧
    exAv.validate exOne (idNewToken ++ [9, 9]) exPeer 4000 = .validate := by
  refine ⟨?_, ⟨⟨rfl, by decide⟩, by decide, ?_⟩, ⟨rfl, by decide⟩, by decide +kernel, by decide +kernel, by decide +kernel, by decide +kernel⟩
  · intro aad ct pt h
    unfold exOne at h
    dsimp only at h
    split at h
    · next hc => exact ⟨_, List.mem_singleton.mpr rfl, hc.1.symm, h⟩
    · cases h
  · intro d h
    cases h
    decide

example : ∃ t, exAv.generate exCipher (some exCid) exPeer 2000 7 = some t ∧
    exAv.validate exCipher t exPeer 4999000000 = .validRetry exCid := by
  refine ⟨_, rfl, by decide +kernel⟩

/-- A token of at most five bytes, which may come from another server, makes the server drop
the packet even if it does not validate addresses (RFC 9000 §8.1.3: it SHOULD proceed as if
the client did not have a token). -/
theorem C77_short_token_dropped (a : Av) (c : Cipher) (token : Bytes) (h0 : token ≠ []) (h5 : token.length ≤ 5) (peer : Addr)
    (now : Nat) : a.validate c token peer now = .invalid := by
  unfold Av.validate
  rw [if_neg h0, if_pos h5]

end Neqo.Av
