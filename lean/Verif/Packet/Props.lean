import Verif.Packet.SoundL

/-!
# Packets on the wire (C73)

`Verif/Packet/Spec.lean` is the format of RFC 9000, RFC 9001 and RFC 9369.
-/
namespace Neqo.Pkt
open Neqo.Codec (Bytes beBytes beVal)

theorem len2_varint (n : Nat) (h : n < 2 ^ 14) : Spec.IsVarint (len2 n) n := by
  have hhi : (((0x40 : UInt8) ||| UInt8.ofNat ((n >>> 8) &&& 0x3f))).toNat = 64 + n / 256 := by
    have e : (n >>> 8) &&& 0x3f = n / 256 := by
      rw [show (0x3f : Nat) = 2 ^ 6 - 1 from rfl, Nat.and_two_pow_sub_one_eq_mod, Nat.shiftRight_eq_div_pow]
      omega
    have hf : ∀ k : Fin 64, ((0x40 : UInt8) ||| UInt8.ofNat k).toNat = 64 + k := by decide +kernel
    rw [e]
    exact hf ⟨n / 256, by omega⟩
  have hlo : (UInt8.ofNat (n &&& 0xff)).toNat = n % 256 := by
    rw [show (0xff : Nat) = 2 ^ 8 - 1 from rfl, Nat.and_two_pow_sub_one_eq_mod, UInt8.toNat_ofNat']
    omega
  intro r
  unfold len2
  rw [List.cons_append, List.cons_append, List.nil_append, Codec.decodeVarint_announced]
  have ha : Codec.announcedLen ((0x40 : UInt8) ||| UInt8.ofNat ((n >>> 8) &&& 0x3f)) = 2 := by
    unfold Codec.announcedLen
    rw [hhi, show (64 + n / 256) / 64 = 1 by omega]; rfl
  rw [ha, if_neg (by simp)]
  simp only [List.take_succ_cons, List.take_zero, List.drop_succ_cons, List.drop_zero, beVal, hhi, hlo, List.length_cons,
    List.length_nil]
  congr 2
  omega

theorem header_done (a : HeaderArgs) (p : Spec.Clear) (ha : a.clear [] = some p) (hl : 0 < a.pnLen)
    (htok : a.token.length < 2 ^ 62) (buf : Bytes) (limit : Nat) :
    ∃ b, buildHeader a buf limit = .ok b ∧ HeaderDone a buf limit b ∧
      (20 + (a.dcid.getD []).length + (a.scid.getD []).length + a.token.length < limit - buf.length → b.limit ≠ 0) := by
  have long : ∀ t : Spec.LTy, a.ty = t.ty → ∃ b, buildHeader a buf limit = .ok b ∧ HeaderDone a buf limit b ∧
      (20 + (a.dcid.getD []).length + (a.scid.getD []).length + a.token.length < limit - buf.length → b.limit ≠ 0) := by
    intro t ht
    obtain ⟨b, h1, h2, h3⟩ := header_long a buf limit t ht hl htok
    refine ⟨b, h1, h2, fun h => h3 ?_⟩
    split <;> omega
  cases h : a.ty with
  | short =>
    obtain ⟨b, h1, h2, h3⟩ := header_short a buf limit h hl
    exact ⟨b, h1, h2, fun h => h3 (by omega)⟩
  | initial => exact long .initial h
  | zeroRtt => exact long .zeroRtt h
  | handshake => exact long .handshake h
  | retry => rw [HeaderArgs.clear, h] at ha; cases ha
  | versionNegotiation => rw [HeaderArgs.clear, h] at ha; cases ha
  | otherVersion => rw [HeaderArgs.clear, h] at ha; cases ha

theorem clear_payload (a : HeaderArgs) (payload : Bytes) : a.clear payload = (a.clear []).map fun p => { p with payload } := by
  unfold HeaderArgs.clear
  simp only [Option.map_map]
  rfl

/-! ## C73 -/

/-- Writing a header never fails.  Either there is not enough room, or the packet that is
meant is written once a payload that fits was added: what was there before, and the packet
in the format of the specification, padded to at least 20 bytes after the header for the
sample.  It takes no more than the limit and the room for the tag.  Giving up leaves what
was there before.  Partial: packets with a long header only in datagrams of less than 2^14 bytes,
because the length of longer ones would be truncated. -/
theorem C73_written_partial (a : HeaderArgs) (payload : Bytes) (p : Spec.Clear) (hp : a.clear payload = some p) (hl : 0 < a.pnLen)
    (htok : a.token.length < 2 ^ 62) (hd : (a.dcid.getD []).length ≤ 20) (hs : (a.scid.getD []).length ≤ 20)
    (buf : Bytes) (limit : Nat) (c : Seal) (hc : Spec.SealOk c) (h16 : c.expansion = 16)
    (hlim : p.head.isLong = true → limit + 16 < 2 ^ 14) :
    ∃ b, buildHeader a buf limit = .ok b ∧ b.abort = buf ∧
      (20 + (a.dcid.getD []).length + (a.scid.getD []).length + a.token.length < limit - buf.length → b.limit ≠ 0) ∧
      (b.limit ≠ 0 → b.buf.length + payload.length ≤ limit → ∃ k tl ll out, k ≤ 3 ∧
        { b with buf := b.buf ++ payload }.build c = .ok (buf ++ out) ∧
        out = { p with payload := payload ++ List.replicate k 0 }.wire c tl ll ∧
        Spec.Clear.Ok c { p with payload := payload ++ List.replicate k 0 } ∧
        Spec.Clear.Lengths c { p with payload := payload ++ List.replicate k 0 } tl ll ∧
        (buf ++ out).length ≤ limit + 16) := by
  rw [clear_payload] at hp
  obtain ⟨p0, hp0, rfl⟩ : ∃ p0, a.clear [] = some p0 ∧ p = { p0 with payload } := by
    cases h : a.clear [] with
    | none => rw [h] at hp; cases hp
    | some p0 => rw [h] at hp; exact ⟨p0, rfl, (Option.some.inj hp).symm⟩
  obtain ⟨b, h1, ⟨h2, h3, h4⟩, h5⟩ := header_done a p0 hp0 hl htok buf limit
  refine ⟨b, h1, by rw [Builder.abort, h2]; exact h3, h5, fun hb hfit => ?_⟩
  rcases h4 with h4 | ⟨h4, h6, q, tl, mid0, hq, hmid, hready, htl⟩
  · exact absurd h4 hb
  rw [hp0] at hq
  obtain rfl := Option.some.inj hq
  have hw : p0.w = min 4 a.pnLen := by
    unfold HeaderArgs.clear at hp0
    simp only at hp0
    obtain ⟨h, _, rfl⟩ := Option.map_eq_some_iff.mp hp0
    rfl
  have hpn : p0.pn = a.pn := by
    unfold HeaderArgs.clear at hp0
    simp only at hp0
    obtain ⟨h, _, rfl⟩ := Option.map_eq_some_iff.mp hp0
    rfl
  have hbuild := build_ready hready c hc payload (by simp) (by simp; omega) (by omega)
  simp only [Codec.beBytes_length, h16, Nat.sub_self, Nat.add_zero] at hbuild
  have hk : 4 - (p0.w + payload.length) ≤ 3 := by omega
  have hkl : payload.length + (4 - (p0.w + payload.length)) ≤ max payload.length (4 - p0.w) := by omega
  have hk4 : 4 ≤ p0.w + payload.length + (4 - (p0.w + payload.length)) := by omega
  generalize 4 - (p0.w + payload.length) = k at hbuild hk hkl hk4
  have hids : match p0.head with
      | .short .. => True
      | .long _ _ dcid scid _ => dcid.length ≤ 20 ∧ scid.length ≤ 20 := by
    unfold HeaderArgs.clear at hp0
    simp only at hp0
    obtain ⟨h, hh, rfl⟩ := Option.map_eq_some_iff.mp hp0
    simp only
    cases hty : a.ty <;> rw [hty] at hh <;> simp only [Option.some.injEq, reduceCtorEq] at hh <;> subst hh <;>
      first | trivial | exact ⟨hd, hs⟩
  have hbl : b.buf.length = buf.length + 1 + mid0.length + (if p0.head.isLong then 2 else 0) + p0.w := by
    rw [hready.bytes]; cases p0.head.isLong <;> simp <;> omega
  refine ⟨k, tl, len2 (p0.w + (payload ++ List.replicate k 0).length + 16), _, hk, hbuild, ?_, ⟨?_, ?_, ?_, hids⟩, ?_, ?_⟩
  · unfold Spec.Clear.wire
    simp only [hmid, hpn]
    rfl
  · show 1 ≤ p0.w; omega
  · show p0.w ≤ 4; omega
  · simp only [List.length_append, List.length_replicate, h16]; omega
  · unfold Spec.Clear.Lengths
    simp only
    cases hh : p0.head with
    | short => trivial
    | long t v dcid scid token =>
      refine ⟨fun hi => ?_, ?_⟩
      · have hty : a.ty = .initial ∧ token = a.token := by
          unfold HeaderArgs.clear at hp0
          simp only at hp0
          obtain ⟨h, hh', rfl⟩ := Option.map_eq_some_iff.mp hp0
          simp only at hh
          subst hh hi
          cases hty : a.ty <;> rw [hty] at hh' <;> simp at hh'
          exact ⟨rfl, hh'.2.2.2.symm⟩
        obtain ⟨e, he, hv⟩ := Codec.encodeVarint_decode htok
        rw [htl hty.1] at he
        cases he
        rw [hty.2]; exact hv
      · have hlim := hlim (by simp [hh, Spec.Head.isLong])
        rw [h16]
        apply len2_varint
        simp only [List.length_append, List.length_replicate]
        rw [hw] at hkl hbl
        omega
  · simp only [Spec.protect, List.length_append, List.length_cons, List.length_zipWith, Codec.beBytes_length, hc.size, h16,
      List.length_drop, hc.mask, List.length_replicate]
    rw [hw] at hkl hbl ⊢
    have : (if p0.head.isLong = true then len2 (min 4 a.pnLen + (payload.length + k) + 16) else []).length =
        if p0.head.isLong = true then 2 else 0 := by split <;> rfl
    rw [this]
    omega

/-- A toy cipher for examples: the tag is 16 times the last byte of the header. -/
def toySeal : Seal :=
  { expansion := 16
    enc := fun _ aad pt => pt ++ List.replicate 16 (aad.getLastD 0)
    mask := fun s => s.take 16 ++ List.replicate (16 - s.length) 0 }

def toyOpen : Nat → Bytes → Bytes → Option Bytes := fun _ aad ct =>
  if ct.drop (ct.length - 16) = List.replicate 16 (aad.getLastD 0) then some (ct.take (ct.length - 16)) else none

theorem toySeal_ok : Spec.SealOk toySeal :=
  ⟨fun _ _ _ => by simp [toySeal], fun s => by simp [toySeal]; omega⟩

def toyArgs : HeaderArgs :=
  { ty := .initial, version := .v2, dcid := some [1, 2, 3, 4, 5, 6, 7, 8], scid := some [9], token := [10, 11],
    keyPhase := false, quicBit := true, rnd := 0xff, pn := 300, pnLen := 2 }

example : (buildHeader toyArgs [7, 7] 1200).map (fun b => (b.buf.length, b.limit)) = .ok (25, 1200) ∧
    ((buildHeader toyArgs [7, 7] 1200).toOption.bind fun b => ({ b with buf := b.buf ++ [1] }.build toySeal).toOption).map
      (fun o => (o.length, o.take 3)) = some (43, [7, 7, 0x9d]) := by decide +kernel

/-- A packet in the format of the specification, with any of the encodings of its lengths,
is read as it was written, and what follows it is left.  With the keys it was protected
with the reader gets the version of the keys, and type, number, connection IDs and payload
as they were written. -/
theorem C73_read (cid : Bytes → Option (Bytes × Bytes)) (exp : Nat) (other : Bool) (c : Seal) (hc : Spec.SealOk c)
    (p : Spec.Clear) (hp : p.Ok c) (tl ll rest : Bytes) (hl : p.Lengths c tl ll)
    (hcid : p.head.isLong = false → rest = [] ∧ ∀ r, cid (p.head.dcid ++ r) = some (p.head.dcid, r)) :
    ∃ pub, decodePublic cid exp other (p.wire c tl ll ++ rest) = .ok (pub, rest) ∧
      pub.data = p.wire c tl ll ∧ pub.token = p.head.token ∧ pub.dcid = p.head.dcid ∧ pub.ty = p.head.ty ∧
      ∀ k v, Spec.Keyed c p k v → pub.decrypt k = .ok (p.contents v none) :=
  read_wire cid exp other 1 none c hc p hp tl ll rest hl hcid

/-- The same after a SCONE packet, whose rate signal is then reported. -/
theorem C73_read_scone (cid : Bytes → Option (Bytes × Bytes)) (exp : Nat) (other : Bool) (c : Seal) (hc : Spec.SealOk c)
    (p : Spec.Clear) (hp : p.Ok c) (tl ll rest : Bytes) (hl : p.Lengths c tl ll)
    (hcid : p.head.isLong = false → rest = [] ∧ ∀ r, cid (p.head.dcid ++ r) = some (p.head.dcid, r))
    (hi : Fin 64) (lo : Bool) (fixed : Bool) (d s : Bytes) (hd : d.length < 256) (hs : s.length < 256) :
    ∃ pub, decodePublic cid exp other (UInt8.ofNat (128 + (if fixed then 64 else 0) + hi) ::
        (beBytes 4 (if lo then 0xef7dc0fd else 0x6f7dc0fd) ++ Spec.string1 d ++ Spec.string1 s ++ (p.wire c tl ll ++ rest))) =
          .ok (pub, rest) ∧
      pub.data = p.wire c tl ll ∧ pub.token = p.head.token ∧ pub.dcid = p.head.dcid ∧ pub.ty = p.head.ty ∧
      ∀ k v, Spec.Keyed c p k v → pub.decrypt k = .ok (p.contents v (some (2 * hi + if lo then 1 else 0))) := by
  obtain ⟨pub, h1, h2⟩ := read_wire cid exp other 0 (some (2 * hi + if lo then 1 else 0)) c hc p hp tl ll rest hl hcid
  refine ⟨pub, ?_, h2⟩
  unfold decodePublic decodeInner
  simp only [Codec.decodeN_one_cons, opt, bind, Except.bind, UInt8.ofNat_toNat]
  have hb : UInt8.ofNat (128 + (if fixed then 64 else 0) + hi) &&& 0x80 ≠ 0 := by
    clear h1 h2; revert hi fixed; decide +kernel
  rw [if_neg hb]
  have hv : ∀ r, Codec.decodeN 4 (beBytes 4 (if lo then 0xef7dc0fd else 0x6f7dc0fd) ++ r) =
      some (if lo then 0xef7dc0fd else 0x6f7dc0fd, r) := by
    intro r
    rw [Codec.decodeN_beBytes (by decide) (by decide)]
    cases lo <;> rfl
  simp only [List.append_assoc, hv]
  rw [decodeVec1 _ _ hd]
  simp only
  rw [decodeVec1 _ _ hs]
  simp only
  rw [if_neg (by cases lo <;> decide), if_pos (by cases lo <;> decide)]
  have hr : sconeRate (UInt8.ofNat (128 + (if fixed then 64 else 0) + hi)) (if lo then 0xef7dc0fd else 0x6f7dc0fd) =
      2 * hi + if lo then 1 else 0 := by clear h1 h2 hb hv; revert hi fixed lo; decide +kernel
  simp only [Option.isSome_none, Bool.false_eq_true, if_false, hr]
  exact h1

/-- Keys that open what `toySeal` protects. -/
def toyKeys (next : Nat) : RxKeys :=
  { hp := fun _ _ => some (toySeal.mask, next), pending := fun _ => false, rx := fun v _ _ => some (v, toyOpen) }

def toyPacket : Spec.Clear :=
  { head := .long .handshake .v2 [1, 2] [3] [], fixed := true, pn := 70000, w := 2, payload := [5, 6, 7] }

example : (decodePublic (fun _ => none) 16 false (toyPacket.wire toySeal [] (len2 21) ++ [1, 2, 3])).toOption.map
      (fun x => (x.1.dcid, x.2, x.1.decrypt (toyKeys 69990))) =
    some ([1, 2], [1, 2, 3], .ok (toyPacket.contents .v2 none)) := by decide +kernel

/-! ### Datagrams -/

/-- One packet of a datagram, with what it was protected with and the lengths in it. -/
structure Spec.Piece where
  seal' : Seal
  clear : Spec.Clear
  tl : Bytes
  ll : Bytes

def Spec.Piece.wire (x : Spec.Piece) : Bytes := x.clear.wire x.seal' x.tl x.ll

structure Spec.Piece.Ok (x : Spec.Piece) (dcid : Bytes) : Prop where
  sealOk : Spec.SealOk x.seal'
  ok : x.clear.Ok x.seal'
  lengths : x.clear.Lengths x.seal' x.tl x.ll
  dcid : x.clear.head.dcid = dcid

/-- What the receiver does with the packets of a datagram: each is looked at, and opened
with the keys there are then, or it cannot be opened and is passed over. -/
inductive Spec.Takes {σ : Type} (i : Input σ) : σ → List Spec.Piece → List Decrypted → σ → Prop where
  | done (s : σ) : Takes i s [] [] s
  | opened (s s1 s2 s3 : σ) (x : Spec.Piece) (v : Version) (rest : List Spec.Piece) (ds : List Decrypted)
      (pre : ∀ pub : Public, pub.data = x.wire → pub.dcid = x.clear.head.dcid → pub.ty = x.clear.head.ty → i.pre s pub = some s1)
      (keys : Spec.Keyed x.seal' x.clear (i.keys s1) v)
      (good : i.good s1 (x.clear.contents v none) = some s2) (go : Takes i s2 rest ds s3) :
      Takes i s (x :: rest) (x.clear.contents v none :: ds) s3
  | passed (s s1 s2 s3 : σ) (x : Spec.Piece) (e : PErr) (rest : List Spec.Piece) (ds : List Decrypted)
      (pre : ∀ pub : Public, pub.data = x.wire → pub.dcid = x.clear.head.dcid → pub.ty = x.clear.head.ty → i.pre s pub = some s1)
      (fails : ∀ pub : Public, pub.data = x.wire → pub.dcid = x.clear.head.dcid → pub.ty = x.clear.head.ty →
        pub.decrypt (i.keys s1) = .error e)
      (bad : i.bad s1 e = some s2) (go : Takes i s2 rest ds s3) :
      Takes i s (x :: rest) ds s3

theorem wire_ne_nil (c : Seal) (p : Spec.Clear) (tl ll : Bytes) : p.wire c tl ll ≠ [] := by
  simp [Spec.Clear.wire, Spec.protect]

/-- All packets of a datagram are read, each as it was written, also after packets that
cannot be opened.  All have the same connection ID, and a packet with a short header is
the last. -/
theorem C73_datagram {σ : Type} (i : Input σ) (cid : Bytes → Option (Bytes × Bytes)) (exp : Nat) (s s' : σ)
    (xs : List Spec.Piece) (ds : List Decrypted) (h : Spec.Takes i s xs ds s') (dcid : Bytes)
    (hok : ∀ x ∈ xs, x.Ok dcid) (hcid : ∀ r, cid (dcid ++ r) = some (dcid, r))
    (hlast : ∀ a x b, xs = a ++ x :: b → x.clear.head.isLong = false → b = []) (n : Nat) (hn : xs.length < n)
    (before : Option Bytes) (hb : before = none ∨ before = some dcid) :
    inputLoop i cid exp n s before (xs.map Spec.Piece.wire).flatten = (s', ds) := by
  induction h generalizing n before with
  | done s =>
    obtain ⟨n, rfl⟩ : ∃ k, n = k + 1 := ⟨n - 1, by omega⟩
    simp [inputLoop]
  | opened s s1 s2 s3 x v rest ds pre keys good go ih =>
    obtain ⟨n, rfl⟩ : ∃ k, n = k + 1 := ⟨n - 1, by omega⟩
    have hx := hok x List.mem_cons_self
    obtain ⟨pub, h1, h2, _, h4, h5, h6⟩ := C73_read cid exp false x.seal' hx.sealOk x.clear hx.ok x.tl x.ll
      (rest.map Spec.Piece.wire).flatten hx.lengths (fun hs => by
        have := hlast [] x rest rfl hs
        subst this
        exact ⟨rfl, fun r => by rw [hx.dcid]; exact hcid r⟩)
    have hne : (List.map Spec.Piece.wire (x :: rest)).flatten ≠ [] := by
      simp [Spec.Piece.wire, wire_ne_nil]
    have hd : before.any (· ≠ pub.dcid) = false := by
      rw [h4, hx.dcid]; rcases hb with rfl | rfl <;> simp
    have hcd : (x.clear.contents v none).dcid = dcid := by
      rw [← hx.dcid]; unfold Spec.Clear.contents Spec.Head.dcid; split <;> simp
    unfold inputLoop
    rw [if_neg hne, List.map_cons, List.flatten_cons, Spec.Piece.wire, h1]
    simp only [hd, pre pub h2 h4 h5, h6 _ _ keys, good, Bool.false_eq_true, if_false]
    rw [ih (fun y hy => hok y (List.mem_cons_of_mem _ hy))
      (fun a y b e => hlast (x :: a) y b (by rw [e]; rfl)) n (by simp at hn; omega) _ (.inr (by rw [hcd]))]
  | passed s s1 s2 s3 x e rest ds pre fails bad go ih =>
    obtain ⟨n, rfl⟩ : ∃ k, n = k + 1 := ⟨n - 1, by omega⟩
    have hx := hok x List.mem_cons_self
    obtain ⟨pub, h1, h2, _, h4, h5, h6⟩ := C73_read cid exp false x.seal' hx.sealOk x.clear hx.ok x.tl x.ll
      (rest.map Spec.Piece.wire).flatten hx.lengths (fun hs => by
        have := hlast [] x rest rfl hs
        subst this
        exact ⟨rfl, fun r => by rw [hx.dcid]; exact hcid r⟩)
    have hne : (List.map Spec.Piece.wire (x :: rest)).flatten ≠ [] := by
      simp [Spec.Piece.wire, wire_ne_nil]
    have hd : before.any (· ≠ pub.dcid) = false := by
      rw [h4, hx.dcid]; rcases hb with rfl | rfl <;> simp
    unfold inputLoop
    rw [if_neg hne, List.map_cons, List.flatten_cons, Spec.Piece.wire, h1]
    simp only [hd, pre pub h2 h4 h5, fails pub h2 h4 h5, bad, Bool.false_eq_true, if_false]
    exact ih (fun y hy => hok y (List.mem_cons_of_mem _ hy))
      (fun a y b e => hlast (x :: a) y b (by rw [e]; rfl)) n (by simp at hn; omega) _ (.inr (by rw [h4, hx.dcid]))

/-- A receiver that takes everything it can open. -/
def toyInput : Input Nat :=
  { pre := fun s _ => some s, keys := toyKeys, good := fun _ d => some (d.pn + 1), bad := fun s _ => some s }

def toyPacket2 : Spec.Clear :=
  { head := .short [1, 2] true true, fixed := false, pn := 70001, w := 1, payload := [8, 8, 8] }

example : inputLoop toyInput (fun d => some (d.take 2, d.drop 2)) 16 9 69990 none
    (toyPacket.wire toySeal [] (len2 21) ++ toyPacket2.wire toySeal [] []) =
    (70002, [toyPacket.contents .v2 none, toyPacket2.contents .v1 none]) := by decide +kernel

/-- Whatever arrives, taking a datagram apart does not fail in an unforeseen way, and what
it finds is a piece of what arrived, before what is left. -/
theorem C73_total (cid : Bytes → Option (Bytes × Bytes)) (hcid : ∀ d x r, cid d = some (x, r) → d = x ++ r)
    (exp : Nat) (other : Bool) (data : Bytes) :
    decodePublic cid exp other data ≠ .error .panic ∧
    ∀ pub rest, decodePublic cid exp other data = .ok (pub, rest) →
      pub.data ≠ [] ∧ pub.headerLen ≤ pub.data.length ∧ ∃ pre, data = pre ++ (pub.data ++ rest) := by
  refine ⟨decodeInner_no_panic _ _ _ _ _ _ (.inl (Nat.le_refl _)), fun pub rest h => ?_⟩
  obtain ⟨hs, hp⟩ := decodeInner_shape cid hcid _ _ _ _ _ _ _ h
  cases hs with
  | short x body hx hty hrest hdata hb hlen hv hs ht =>
    rw [hlen, hdata]; exact ⟨by simp, by simp; omega, hdata ▸ hp⟩
  | long x t v scid tl ll body hx hty hbits hv hs hd20 hs20 htok hll hdata hlen =>
    rw [hlen, hdata]; exact ⟨by simp, by simp; omega, hdata ▸ hp⟩
  | other h1 h2 h3 => exact ⟨h3, h2, hp⟩

end Neqo.Pkt
