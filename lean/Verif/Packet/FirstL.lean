import Verif.Packet.ReadL

/-! First bytes, and packets that are read as they were written. -/
namespace Neqo.Pkt
open Neqo.Codec (Bytes beBytes beVal)

set_option maxRecDepth 100000 in
theorem long_first (t : Spec.LTy) (v : Version) (f : Bool) (w : Nat) (h1 : 1 ≤ w) (h4 : w ≤ 4) :
    UInt8.ofNat (128 + (if f then 64 else 0) + 16 * t.code v + (w - 1)) &&& 0x80 ≠ 0 ∧
    Ty.fromByte ((UInt8.ofNat (128 + (if f then 64 else 0) + 16 * t.code v + (w - 1)) >>> 4) &&& 3) v = t.ty ∧
    UInt8.ofNat (128 + (if f then 64 else 0) + 16 * t.code v + (w - 1)) &&& 3 = UInt8.ofNat (w - 1) ∧
    UInt8.ofNat (128 + (if f then 64 else 0) + 16 * t.code v + (w - 1)) &&& 0x0c = 0 := by
  obtain ⟨u, rfl⟩ : ∃ u : Fin 4, w = u.1 + 1 := ⟨⟨w - 1, by omega⟩, by simp; omega⟩
  rw [Nat.add_sub_cancel]
  clear h1 h4
  cases t <;> cases v <;> revert u f <;> decide +kernel

set_option maxRecDepth 100000 in
theorem short_first (f s kp : Bool) (w : Nat) (h1 : 1 ≤ w) (h4 : w ≤ 4) :
    UInt8.ofNat ((if f then 64 else 0) + (if s then 32 else 0) + (if kp then 4 else 0) + (w - 1)) &&& 0x80 = 0 ∧
    UInt8.ofNat ((if f then 64 else 0) + (if s then 32 else 0) + (if kp then 4 else 0) + (w - 1)) &&& 3 = UInt8.ofNat (w - 1) ∧
    UInt8.ofNat ((if f then 64 else 0) + (if s then 32 else 0) + (if kp then 4 else 0) + (w - 1)) &&& 0x18 = 0 ∧
    decide (UInt8.ofNat ((if f then 64 else 0) + (if s then 32 else 0) + (if kp then 4 else 0) + (w - 1)) &&& 4 = 4) = kp := by
  obtain ⟨u, rfl⟩ : ∃ u : Fin 4, w = u.1 + 1 := ⟨⟨w - 1, by omega⟩, by simp; omega⟩
  rw [Nat.add_sub_cancel]
  clear h1 h4
  revert u f s kp; decide +kernel

/-- Masks do not change the bits above them. -/
theorem xor_high (x m bits : UInt8) (hi : UInt8) (h : bits &&& hi = 0) : (x ^^^ (m &&& bits)) &&& hi = x &&& hi := by
  apply UInt8.toNat_inj.mp
  simp only [UInt8.toNat_and, UInt8.toNat_xor]
  apply Nat.eq_of_testBit_eq
  intro i
  have h' : (bits.toNat &&& hi.toNat).testBit i = false := by
    rw [← UInt8.toNat_and, h]; simp
  simp only [Nat.testBit_and, Nat.testBit_xor] at h' ⊢
  generalize x.toNat.testBit i = a at *
  generalize m.toNat.testBit i = b at *
  generalize bits.toNat.testBit i = c at *
  generalize hi.toNat.testBit i = d at *
  revert a b c d; decide

set_option maxRecDepth 100000 in
theorem shift_and3 (x : UInt8) : (x >>> 4) &&& (3 : UInt8) = (x &&& 0x30) >>> 4 := by
  revert x; refine byte_forall _ ?_; decide +kernel

theorem xor_type (x m : UInt8) : ((x ^^^ (m &&& 0x0f)) >>> 4) &&& (3 : UInt8) = (x >>> 4) &&& (3 : UInt8) := by
  rw [shift_and3, shift_and3, xor_high _ _ _ _ (by decide)]

/-- Contents of a packet, as an application of the reader sees them. -/
def Spec.Clear.contents (p : Spec.Clear) (v : Version) (scone : Option Nat) : Decrypted :=
  match p.head with
  | .short dcid _ kp => { version := v, ty := .short, pn := p.pn, dcid, scid := none, data := p.payload, scone, keyPhase := kp }
  | .long t _ dcid scid _ => { version := v, ty := t.ty, pn := p.pn, dcid, scid := some scid, data := p.payload, scone, keyPhase := false }

/-- The version whose keys are used for a packet: a short header has none. -/
def Spec.Head.version : Spec.Head → Version
  | .short .. => .v1
  | .long _ v .. => v

def Spec.Head.ty : Spec.Head → Ty
  | .short .. => .short
  | .long t .. => t.ty

def Spec.Head.keyPhase : Spec.Head → Bool
  | .short _ _ kp => kp
  | .long .. => false

def Spec.Head.dcid : Spec.Head → Bytes
  | .short d .. => d
  | .long _ _ d .. => d

def Spec.Head.token : Spec.Head → Bytes
  | .long .initial _ _ _ t => t
  | _ => []

/-- The keys `k` are those that the packet `p` was protected with, so that what was sealed
can be opened, and its number is near the one that is expected. -/
structure Spec.Keyed (c : Seal) (p : Spec.Clear) (k : RxKeys) (v : Version) : Prop where
  hp : ∃ next, k.hp p.head.version p.head.ty = some (c.mask, next) ∧
    next < p.pn + 256 ^ p.w / 2 ∧ p.pn ≤ next + 256 ^ p.w / 2
  rx : ∃ dec, k.rx p.head.version p.head.ty p.head.keyPhase = some (v, dec) ∧
    ∀ aad, dec p.pn aad (c.enc p.pn aad p.payload) = some p.payload

theorem read_wire (cid : Bytes → Option (Bytes × Bytes)) (exp : Nat) (other : Bool) (n : Nat) (scone : Option Nat)
    (c : Seal) (hc : Spec.SealOk c) (p : Spec.Clear) (hp : p.Ok c) (tl ll rest : Bytes) (hl : p.Lengths c tl ll)
    (hcid : p.head.isLong = false → rest = [] ∧ ∀ r, cid (p.head.dcid ++ r) = some (p.head.dcid, r)) :
    ∃ pub, decodeInner cid exp other (n + 1) scone (p.wire c tl ll ++ rest) = .ok (pub, rest) ∧
      pub.data = p.wire c tl ll ∧ pub.token = p.head.token ∧ pub.dcid = p.head.dcid ∧ pub.ty = p.head.ty ∧
      ∀ k v, Spec.Keyed c p k v → pub.decrypt k = .ok (p.contents v scone) := by
  obtain ⟨head, fixed, pn, w, payload⟩ := p
  have hw1 : 1 ≤ w := hp.w1
  have hw4 : w ≤ 4 := hp.w4
  have hen : 20 ≤ w + payload.length + c.expansion := hp.enough
  have tailLen : ∀ (aad : Bytes) (m : Bytes), m.length = 16 →
      (List.zipWith (· ^^^ ·) (beBytes w pn) (m.drop 1) ++ c.enc pn aad payload).length = w + payload.length + c.expansion := by
    intro aad m hm
    simp [hm, hc.size]; omega
  cases head with
  | short dcid spin kp =>
    obtain ⟨rfl, hcd⟩ := hcid rfl
    obtain ⟨f1, f2, f3, f4⟩ := short_first fixed spin kp w hw1 hw4
    simp only [Spec.Clear.wire, Spec.Head.middle, Spec.Head.isLong, Spec.Clear.first, Spec.protect, Bool.false_eq_true, if_false,
      List.append_nil]
    generalize hfirst : UInt8.ofNat ((if fixed then 64 else 0) + (if spin then 32 else 0) + (if kp then 4 else 0) + (w - 1)) = first at *
    generalize hm : c.mask ((List.drop (4 - w) (c.enc pn (first :: dcid ++ beBytes w pn) payload)).take 16) = m
    have hml : m.length = 16 := by rw [← hm]; exact hc.mask _
    have hx : (first ^^^ (m.getD 0 0 &&& 0x1f)) &&& 0x80 = 0 := by rw [xor_high _ _ _ _ (by decide)]; exact f1
    rw [List.append_assoc]
    rw [parse_short cid exp other n scone _ dcid _ hx (hcd _) (by rw [tailLen _ _ hml]; omega)]
    refine ⟨_, rfl, rfl, rfl, rfl, rfl, fun k v hk => ?_⟩
    obtain ⟨next, hp1, hp2, hp3⟩ := hk.hp
    obtain ⟨dec, hr1, hr2⟩ := hk.rx
    simp only [Spec.Head.version, Spec.Head.ty, Spec.Head.keyPhase] at hp1 hp2 hp3 hr1 hr2
    unfold Public.decrypt
    rw [if_pos (by simp)]
    simp only [Public.version?, Option.bind_none, Option.getD_none, hp1]
    rw [decryptHeader_protect c hc _ first dcid pn w next payload hw1 hw4 f2 hen
      (by simp only [Spec.protect, hm]; simp) rfl hp2 hp3]
    simp only [decide_true, Bool.true_and, f4, hr1]
    have e1 : (first :: dcid ++ beBytes w pn).length = 1 + dcid.length + w := by simp; omega
    rw [List.take_left' e1, List.drop_left' e1, hr2]
    simp only [List.cons_append, List.headD_cons]
    have hr : (if Ty.short.isLong = true then (12 : UInt8) else 24) = 24 := rfl
    simp only [hr, f3, ne_eq, not_true_eq_false, if_false]
    rfl
  | long t v0 dcid scid token =>
    obtain ⟨f1, f5, f2, f3⟩ := long_first t v0 fixed w hw1 hw4
    simp only [Spec.Clear.Lengths] at hl
    have hids : dcid.length ≤ 20 ∧ scid.length ≤ 20 := hp.ids
    simp only [Spec.Clear.wire, Spec.Head.isLong, Spec.Clear.first, Spec.protect, if_true]
    generalize hfirst : UInt8.ofNat (128 + (if fixed then 64 else 0) + 16 * t.code v0 + (w - 1)) = first at *
    generalize hmid : (Spec.Head.long t v0 dcid scid token).middle tl ll = mid
    generalize hm : c.mask ((List.drop (4 - w) (c.enc pn (first :: mid ++ beBytes w pn) payload)).take 16) = m
    have hml : m.length = 16 := by rw [← hm]; exact hc.mask _
    have hx : (first ^^^ (m.getD 0 0 &&& 0x0f)) &&& 0x80 ≠ 0 := by rw [xor_high _ _ _ _ (by decide)]; exact f1
    rw [List.append_assoc, List.append_assoc, ← List.append_assoc (List.zipWith _ _ _)]
    have hpl := parse_long cid exp other n scone (first ^^^ (m.getD 0 0 &&& 0x0f)) t v0 dcid scid token tl ll
      (List.zipWith (· ^^^ ·) (beBytes w pn) (m.drop 1) ++ c.enc pn (first :: mid ++ beBytes w pn) payload) rest hx
      (by rw [xor_type]; exact f5) hids.1 hids.2 hl.1 (by rw [tailLen _ _ hml]; exact hl.2)
    rw [hmid] at hpl
    rw [hpl]
    refine ⟨_, rfl, by rw [List.append_assoc], ?_, rfl, rfl, fun k v hk => ?_⟩
    · cases t <;> simp [Spec.Head.token]
    obtain ⟨next, hp1, hp2, hp3⟩ := hk.hp
    obtain ⟨dec, hr1, hr2⟩ := hk.rx
    simp only [Spec.Head.version, Spec.Head.ty, Spec.Head.keyPhase] at hp1 hp2 hp3 hr1 hr2
    unfold Public.decrypt
    have hw : Version.ofWire v0.wire = some v0 := by cases v0 <;> rfl
    have hns : ¬ t.ty = .short := by cases t <;> decide
    rw [if_pos (by cases t <;> simp [Spec.LTy.ty])]
    simp only [Public.version?, Option.bind_some, hw, Option.getD_some, hp1]
    rw [decryptHeader_protect c hc _ first mid pn w next payload hw1 hw4 f2 hen
      (by simp only [Spec.protect, hm]; simp [hns]) rfl hp2 hp3]
    simp only [hns, decide_false, Bool.false_and, hr1]
    have e1 : (first :: mid ++ beBytes w pn).length = 1 + mid.length + w := by simp; omega
    rw [List.take_left' e1, List.drop_left' e1, hr2]
    have hlong : t.ty.isLong = true := by cases t <;> rfl
    simp only [List.cons_append, List.headD_cons, hlong, if_true]
    rw [if_neg (by simp [f3])]
    rfl

end Neqo.Pkt
