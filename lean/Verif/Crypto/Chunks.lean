import Verif.Crypto.Model
import Verif.Frames.Write
import Verif.SendStream.TxLemmas

/-! # What a turn of `write_frame` writes: lemmas -/
namespace Neqo.Crypto
open Neqo.Codec (Bytes)
open Neqo.Send
open Neqo.Frm (Wire Frame)

/-- The frame covers byte `i` of the stream. -/
def CFrame.Covers (f : CFrame) (i : Nat) : Prop := f.off ≤ i ∧ i < f.off + f.data.length

theorem wire_longer {off : Nat} {d w : Bytes} (h : Wire (.crypto off d) w) : d.length < w.length := by
  have hl : (Frame.crypto off d).layout = (0x06, [.var off] ++ [.counted d]) := rfl
  obtain ⟨t, b, ht, hb, rfl⟩ := (Frm.wire_only hl rfl).mp h
  obtain ⟨x, y, _, hy, rfl⟩ := Frm.fields_append.mp hb
  obtain ⟨l, _, rfl⟩ := Frm.fields_one.mp hy
  obtain ⟨⟨k, _, hk, _⟩, _⟩ := ht
  have : 0 < 2 ^ k := Nat.pos_of_ne_zero (by simp)
  simp only [List.length_append]
  omega

/-- When nothing is written, there is hardly any room; and a frame without data is short. -/
theorem writeCrypto_room {rem off : Nat} {dat : Bytes} (h : off + dat.length < 2 ^ 62) :
    (Frm.writeCrypto rem off dat = .ok none → rem < 11) ∧
    (∀ w n, Frm.writeCrypto rem off dat = .ok (some (w, n)) → dat = [] → w.length ≤ 10) := by
  obtain ⟨n0, hn0⟩ := Frm.varintLen_ex (v := off) (by omega)
  have b0 := Frm.varintLen_le (by omega) hn0
  have hlv : Frm.lv off = .ok n0 := by unfold Frm.lv; rw [hn0]
  unfold Frm.writeCrypto
  rw [hlv]
  simp only [bind, Except.bind, pure, Except.pure]
  by_cases hr : rem < 1 + n0 + 1 + 1
  · rw [if_pos hr]
    exact ⟨fun _ => by omega, fun w n h => by cases h⟩
  · rw [if_neg hr]
    constructor
    · intro hc
      split at hc
      · cases hc
      · split at hc
        · cases hc
        · split at hc
          · cases hc
          · split at hc <;> cases hc
    · intro w n hc hd
      subst hd
      have h1 : Frm.lv (min ([] : Bytes).length (rem - (1 + n0 + 1))) = .ok 1 := by
        rw [List.length_nil, Nat.zero_min]; rfl
      rw [h1] at hc
      simp only [List.take_nil] at hc
      rw [if_neg (by omega)] at hc
      obtain ⟨et, e, g1, _, _, g2, g3, _, _⟩ := Frm.evs_type (t := .crypto) (vs := [off]) (by
        intro v hv; rw [List.mem_singleton.mp hv]; omega)
      rw [g1] at hc
      have h2 : Frm.evv [] = .ok [0] := by decide
      rw [h2] at hc
      simp only [Except.ok.injEq, Option.some.injEq, Prod.mk.injEq] at hc
      rw [← hc.1]
      have het : et.length = 1 := g3.2.1 (by decide)
      have hn : e.length = n0 := by
        unfold Frm.lvs Frm.lvs at g2
        rw [hlv] at g2
        simp only [bind, Except.bind, pure, Except.pure] at g2
        cases g2
        omega
      simp only [List.length_append, List.length_cons, List.length_nil]
      omega

/-- What is known about a frame written with `rem` bytes of room from `d`, which is at `off`. -/
structure Chunk (rem off : Nat) (d : Bytes) (f : CFrame) : Prop where
  low : off ≤ f.off
  high : f.off + f.data.length ≤ off + d.length
  data : f.data = (d.drop (f.off - off)).take f.data.length
  wire : Wire (.crypto f.off f.data) f.wire
  longer : f.data.length < f.wire.length
  fits : f.wire.length ≤ rem

theorem writeChunk_ok {rem off : Nat} {d : Bytes} (h : off + d.length < 2 ^ 62) :
    ∃ o, writeChunk rem off d = .ok o ∧
      (∀ f, o = some f → Chunk rem off d f ∧ f.off = off ∧ (d ≠ [] → f.data ≠ []) ∧ (d = [] → f.wire.length ≤ 10)) ∧
      (o = none → rem < 11) := by
  obtain ⟨o, h1, h2, _⟩ := Frm.crypto_ok (rem := rem) h
  obtain ⟨h4, h5⟩ := writeCrypto_room (rem := rem) h
  unfold writeChunk
  rw [h1] at h4 h5 ⊢
  cases o with
  | none => exact ⟨none, rfl, (fun f hf => by cases hf), fun _ => h4 rfl⟩
  | some p =>
    obtain ⟨w, n⟩ := p
    obtain ⟨a1, a2, _, a4, a5⟩ := h2 w n rfl
    refine ⟨_, rfl, fun f hf => ?_, (fun hf => by cases hf)⟩
    cases hf
    have hlen : (d.take n).length = n := by rw [List.length_take]; omega
    refine ⟨⟨Nat.le_refl _, ?_, ?_, a4, wire_longer a4, a5⟩, rfl, fun hd hc => ?_, fun hd => h5 w n rfl hd⟩
    · simp only [hlen]; omega
    · simp only [Nat.sub_self, List.drop_zero, hlen]
    · have := a2 hd
      simp only at hc
      rw [hc] at hlen
      simp at hlen; omega

/-- The two pieces of `data`: they do not overlap, the left one comes first and is no longer than `mid`. -/
structure Pieces (mid off : Nat) (data l : Bytes) (r : Nat) (right : Bytes) : Prop where
  leftData : l = data.take l.length
  leftLen : l.length ≤ mid
  midLen : mid ≤ data.length
  start : off + mid ≤ r
  rightData : right = (data.drop (r - off)).take right.length
  rightEnd : r + right.length ≤ off + data.length

theorem splitAt_ok {d : Bytes} {n : Nat} (h : n ≤ d.length) : splitAt d n = .ok (d.take n, d.drop n) := by
  unfold splitAt; rw [if_neg (by omega)]

theorem limitChunks_ok {mid off limit : Nat} {data : Bytes} (hm : mid ≤ data.length) :
    ∃ l r right, limitChunks (data.take mid) (off + mid) (data.drop mid) limit = .ok (l, r, right) ∧
      Pieces mid off data l r right ∧ (0 < mid → 2 ≤ limit → l ≠ [] ∨ right ≠ []) := by
  have hl : (data.take mid).length = mid := by rw [List.length_take]; omega
  have hr : (data.drop mid).length = data.length - mid := List.length_drop
  unfold limitChunks
  rw [hl, hr]
  split
  · refine ⟨_, _, _, rfl, ⟨by rw [hl], by omega, hm, Nat.le_refl _, ?_, by rw [hr]; omega⟩, fun h0 _ => .inl ?_⟩
    · rw [hr, Nat.add_sub_cancel_left, ← List.length_drop, List.take_length]
    · intro hc; rw [hc] at hl; simp at hl; omega
  · split
    · simp only
      rw [splitAt_ok (by rw [hr]; omega)]
      simp only
      refine ⟨_, _, _, rfl, ⟨by rw [hl], by omega, hm, by omega, ?_, ?_⟩, fun h0 _ => .inl ?_⟩
      · rw [List.drop_drop, show off + mid + (data.length - mid + mid - limit) - off =
          mid + (data.length - mid + mid - limit) by omega, List.take_length]
      · rw [List.length_drop, hr]; omega
      · intro hc; rw [hc] at hl; simp at hl; omega
    · split
      · rw [splitAt_ok (by rw [hl]; omega)]
        simp only
        refine ⟨_, _, _, rfl, ⟨?_, ?_, hm, Nat.le_refl _, ?_, by rw [hr]; omega⟩, fun h0 h2 => ?_⟩
        · rw [List.take_take, List.length_take]
          congr 1; omega
        · rw [List.length_take, hl]; omega
        · rw [hr, Nat.add_sub_cancel_left, ← List.length_drop, List.take_length]
        · by_cases hz : data.length - mid = 0
          · left
            intro hc
            have := congrArg List.length hc
            rw [List.length_take, hl] at this
            simp at this; omega
          · right
            intro hc; rw [hc] at hr; simp at hr; omega
      · rw [splitAt_ok (by rw [hl]; omega), splitAt_ok (by rw [hr]; omega)]
        simp only
        refine ⟨_, _, _, rfl, ⟨?_, ?_, hm, Nat.le_refl _, ?_, ?_⟩, fun h0 h2 => .inl ?_⟩
        · rw [List.take_take, List.length_take]
          congr 1; omega
        · rw [List.length_take, hl]; omega
        · rw [Nat.add_sub_cancel_left, List.length_take, hr, Nat.min_eq_left (by omega)]
        · rw [List.length_take, hr]; omega
        · intro hc
          have := congrArg List.length hc
          rw [List.length_take, hl] at this
          simp at this; omega

theorem slice_ok {limit off a b : Nat} {data : Bytes} (h : Sni.findSni data = some (a, b)) (hl : 0 < limit) :
    ∃ l r right, slice limit off data a b = .ok (l, r, right) ∧
      Pieces (a + (b - a) / 2) off data l r right ∧ (3 ≤ limit → l ≠ [] ∨ right ≠ []) := by
  obtain ⟨h1, h2, h3⟩ := Sni.C86_in_range h
  unfold slice
  simp only
  rw [splitAt_ok (by omega)]
  simp only
  rw [if_neg (by omega)]
  have hp : 0 < (data.length + limit - 1) / limit := Nat.div_pos (by omega) hl
  rw [if_neg (by omega)]
  obtain ⟨l, r, right, e1, e2, e3⟩ := limitChunks_ok (mid := a + (b - a) / 2) (off := off)
    (limit := data.length / ((data.length + limit - 1) / limit)) (data := data) (by omega)
  refine ⟨l, r, right, e1, e2, fun h => e3 (by omega) ?_⟩
  rw [Nat.le_div_iff_mul_le hp]
  have hk := Nat.div_mul_le_self (data.length + limit - 1) limit
  generalize (data.length + limit - 1) / limit = k at hp hk ⊢
  obtain ⟨j, rfl⟩ : ∃ j, k = j + 1 := ⟨k - 1, by omega⟩
  have h4 : j * 3 ≤ j * limit := Nat.mul_le_mul_left _ h
  rw [Nat.add_mul] at hk
  omega

/-- A frame with a beginning of a piece of the data. -/
theorem Chunk.widen {rem off r : Nat} {data piece : Bytes} {f : CFrame} (h : Chunk rem r piece f) (hf : f.off = r)
    (hr : off ≤ r) (hp : piece = (data.drop (r - off)).take piece.length) (he : r + piece.length ≤ off + data.length) :
    Chunk rem off data f := by
  have hn : f.data.length ≤ piece.length := by have := h.high; omega
  refine ⟨by omega, by have := h.high; omega, ?_, h.wire, h.longer, h.fits⟩
  have hdat := h.data
  rw [hf, Nat.sub_self, List.drop_zero, hp, List.take_take, Nat.min_eq_left hn] at hdat
  rw [hf]
  exact hdat

theorem chunks_ok {sni : Bool} {limit rem off : Nat} {data : Bytes} (h : off + data.length < 2 ^ 62)
    (hd : data ≠ []) (hl : 0 < limit) :
    ∃ x y, chunks sni limit rem off data = .ok (x, y) ∧
      (∀ f, x = some f → Chunk rem off data f) ∧
      (∀ g, y = some g → Chunk (rem - (x.map (·.wire.length)).getD 0) off data g) ∧
      (∀ f g, x = some f → y = some g → g.off + g.data.length ≤ f.off) ∧
      (3 ≤ limit → 21 ≤ rem → ∃ f, (x = some f ∨ y = some f) ∧ f.data ≠ []) ∧
      (sni = true → off = 0 → ∀ a b, Sni.findSni data = some (a, b) →
        (∀ f, x = some f → a + (b - a) / 2 ≤ f.off) ∧
        (∀ g, y = some g → g.off = 0 ∧ g.data.length ≤ a + (b - a) / 2) ∧ (x = none → rem < 11)) ∧
      (x = none → y = none → rem < 11) ∧ (sni = false → y = none) := by
  have plain : ∃ x, writeChunk rem off data = .ok x ∧ (∀ f, x = some f → Chunk rem off data f ∧ f.data ≠ []) ∧
      (x = none → rem < 11) := by
    obtain ⟨o, h1, h2, h3⟩ := writeChunk_ok (rem := rem) h
    exact ⟨o, h1, fun f hf => ⟨(h2 f hf).1, (h2 f hf).2.2.1 hd⟩, h3⟩
  unfold chunks
  cases hs : (if sni && off == 0 then Sni.findSni data else none) with
  | none =>
    obtain ⟨x, h1, h2, h3⟩ := plain
    simp only
    rw [h1]
    refine ⟨x, none, rfl, fun f hf => (h2 f hf).1, (fun g hg => by cases hg), (fun f g _ hg => by cases hg),
      fun _ hr => ?_, fun h4 h5 a b h6 => ?_, fun h4 _ => h3 h4, fun _ => rfl⟩
    · cases x with
      | none => have := h3 rfl; omega
      | some f => exact ⟨f, .inl rfl, (h2 f rfl).2⟩
    · subst h4 h5
      simp [h6] at hs
  | some p =>
    obtain ⟨a, b⟩ := p
    have hc : sni = true ∧ off = 0 ∧ Sni.findSni data = some (a, b) := by
      cases sni with
      | false => cases hs
      | true =>
        by_cases h0 : off = 0
        · subst h0
          exact ⟨rfl, rfl, hs⟩
        · simp [h0] at hs
    obtain ⟨hsni, h0, hf⟩ := hc
    subst h0
    obtain ⟨l, r, right, e1, e2, e3⟩ := slice_ok (off := 0) hf hl
    simp only
    rw [e1]
    simp only
    obtain ⟨x, x1, x2, x3⟩ := writeChunk_ok (rem := rem) (off := r) (d := right) (by
      have := e2.rightEnd; omega)
    rw [x1]
    simp only
    generalize hrem : rem - (x.map (·.wire.length)).getD 0 = rem'
    obtain ⟨y, y1, y2, y3⟩ := writeChunk_ok (rem := rem') (off := 0) (d := l) (by
      have := e2.leftLen; have := e2.midLen; omega)
    rw [y1]
    simp only
    refine ⟨x, y, rfl, fun f hx => ?_, fun g hg => ?_, fun f g hx hg => ?_, fun h3 hr => ?_, fun _ _ a' b' h6 => ?_,
      fun hx _ => x3 hx, (fun hn => by rw [hsni] at hn; cases hn)⟩
    · obtain ⟨c1, c2, _⟩ := x2 f hx
      exact c1.widen c2 (Nat.zero_le _) e2.rightData e2.rightEnd
    · obtain ⟨c1, c2, _⟩ := y2 g hg
      rw [hrem]
      refine c1.widen c2 (Nat.le_refl _) ?_ ?_
      · rw [Nat.sub_self, List.drop_zero]; exact e2.leftData
      · have := e2.leftLen; have := e2.midLen; omega
    · have c1 := (y2 g hg).1.high
      have c2 := (x2 f hx).2.1
      have := e2.leftLen; have := e2.start
      omega
    · by_cases hright : right = []
      · have hl0 : l ≠ [] := (e3 h3).resolve_right (fun h => h hright)
        have hrem' : 11 ≤ rem' := by
          cases x with
          | none => have := x3 rfl; omega
          | some f =>
            have := (x2 f rfl).2.2.2 hright
            simp only [Option.map_some, Option.getD_some] at hrem
            omega
        cases y with
        | none => have := y3 rfl; omega
        | some g => exact ⟨g, .inr rfl, (y2 g rfl).2.2.1 hl0⟩
      · cases x with
        | none => have := x3 rfl; omega
        | some f => exact ⟨f, .inl rfl, (x2 f rfl).2.2.1 hright⟩
    · rw [hf] at h6
      cases h6
      refine ⟨fun f hx => ?_, fun g hg => ?_, x3⟩
      · have := (x2 f hx).2.1
        have := e2.start; omega
      · have c1 := (y2 g hg).1.high
        have c2 := (y2 g hg).2.1
        have := e2.leftLen
        exact ⟨c2, by omega⟩

end Neqo.Crypto
