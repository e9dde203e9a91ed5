import Verif.Crypto.Loop
import Verif.Crypto.Held

/-! # Handshake streams: invariants -/
namespace Neqo.Crypto
open Neqo.Codec (Bytes)
open Neqo.Send
open Neqo.Recv (Rx Rcv Inv Ok)

/-- Byte `i` is in a frame that was acknowledged. -/
def CStream.Acknowledged (c : CStream) (i : Nat) : Prop := ∃ k ∈ c.acks, ∃ f, c.frames[k]? = some f ∧ f.Covers i

/-- Byte `i` is in a frame that is neither acknowledged nor given up. -/
def CStream.InFlight (c : CStream) (i : Nat) : Prop := ∃ k ∈ c.live, ∃ f, c.frames[k]? = some f ∧ f.Covers i

/-- What holds of the sending part at any time. -/
structure SInv (c : CStream) : Prop where
  ok : TxOk c.tx c.written
  frames : ∀ f ∈ c.frames, f.Of c.written
  acked : ∀ i, AckedAt c.tx.ranges i ↔ c.Acknowledged i
  sent : ∀ i, SentAt c.tx.ranges i → c.InFlight i
  given : c.written.length ≤ c.given.length
  full : c.given.length ≤ txMax → c.written = c.given
  ackIn : ∀ k ∈ c.acks, k < c.frames.length
  liveIn : ∀ k ∈ c.live, k < c.frames.length

/-- What holds of the receiving part: `R` is what arrived, `total` the number of bytes in the frames. -/
structure RInv (R : Rcv) (total : Nat) (s : Rx) (out : Bytes) : Prop where
  inv : Inv R s
  right : Ok R 0 out
  len : out.length = s.retired
  held : s.retired + s.held ≤ s.received
  count : s.received ≤ total
  drained : ¬ ∃ b, R s.retired b
  bound : s.held ≤ 65536

theorem sinv_init : SInv {} :=
  ⟨txok_new, by simp, fun i => ⟨fun h => by have := txok_new.acked i h; simp at this,
    by rintro ⟨k, hk, _⟩; cases hk⟩, fun i h => by have := txok_new.sent i h; simp at this, Nat.le_refl _, fun _ => rfl,
    fun _ h => (nomatch h), fun _ h => (nomatch h)⟩

theorem rinv_init : RInv (fun _ _ => False) 0 {} [] :=
  ⟨Recv.inv_init, by intro i b h; simp at h, rfl, Nat.le_refl _, Nat.le_refl _, by simp, Nat.zero_le _⟩

theorem frames_get_append {fs : List CFrame} {k : Nat} {f : CFrame} (h : fs[k]? = some f) (gs : List CFrame) :
    (fs ++ gs)[k]? = some f := by
  rw [List.getElem?_append_left (List.getElem?_eq_some_iff.mp h).1]; exact h

theorem SInv.send {c : CStream} (h : SInv c) (d : Bytes) :
    ∃ c', c.send d = .ok c' ∧ SInv c' ∧ c'.given = c.given ++ d ∧ c'.rx = c.rx ∧ c'.delivered = c.delivered ∧
      c'.tx.ranges = c.tx.ranges ∧ c'.frames = c.frames ∧ c'.acks = c.acks ∧ c'.live = c.live := by
  obtain ⟨t, h1, h2, h3⟩ := h.ok.send d
  unfold CStream.send
  rw [h1]
  refine ⟨_, rfl, ⟨h3, fun f hf => (h.frames f hf).append _, fun i => ?_, fun i hi => ?_, ?_, fun hl => ?_,
    h.ackIn, h.liveIn⟩, rfl, rfl, rfl, h2, rfl, rfl, rfl⟩
  · simp only [h2]; exact h.acked i
  · simp only [h2] at hi; exact h.sent i hi
  · have := h.given
    simp only [List.length_append, List.length_take]; omega
  · simp only [List.length_append] at hl ⊢
    rw [h.full (by omega)]
    have hb : c.tx.buf.length ≤ c.given.length := by
      rw [h.ok.buf, List.length_drop, h.full (by omega)]; omega
    rw [Nat.min_eq_right (by omega), List.take_length]

theorem SInv.write {c : CStream} (h : SInv c) {sni : Bool} {limit rem split : Nat} (hw : c.written.length < 2 ^ 62)
    (hl : 0 < limit) : ∃ c' fs, c.write sni limit rem split = .ok c' ∧ SInv c' ∧ c'.given = c.given ∧
      c'.rx = c.rx ∧ c'.delivered = c.delivered ∧ c'.frames = c.frames ++ fs ∧ c'.written = c.written ∧ c'.acks = c.acks ∧
      Wrote c.written sni limit rem c.tx c'.tx fs ∧
      (∀ i, c'.InFlight i ↔ c.InFlight i ∨ ∃ f ∈ fs, f.Covers i) := by
  obtain ⟨t, fs, h1, h2⟩ := write_ok (sni := sni) (rem := rem) (split := split) hw hl h.ok
  unfold CStream.write
  rw [h1]
  simp only [lift]
  generalize hc' : ({ c with tx := t, frames := c.frames ++ fs,
                             live := c.live ++ (List.range fs.length).map (c.frames.length + ·) } : CStream) = c'
  have e1 : c'.tx = t := by rw [← hc']
  have e2 : c'.frames = c.frames ++ fs := by rw [← hc']
  have e3 : c'.live = c.live ++ (List.range fs.length).map (c.frames.length + ·) := by rw [← hc']
  have e4 : c'.acks = c.acks := by rw [← hc']
  have e5 : c'.written = c.written := by rw [← hc']
  have e6 : c'.given = c.given := by rw [← hc']
  have hack : ∀ i, c'.Acknowledged i ↔ c.Acknowledged i := by
    intro i
    unfold CStream.Acknowledged
    rw [e2, e4]
    constructor
    · rintro ⟨k, hk, f, hf, hc⟩
      rw [List.getElem?_append_left (h.ackIn k hk)] at hf
      exact ⟨k, hk, f, hf, hc⟩
    · rintro ⟨k, hk, f, hf, hc⟩
      exact ⟨k, hk, f, frames_get_append hf _, hc⟩
  have hfl : ∀ i, c'.InFlight i ↔ c.InFlight i ∨ ∃ f ∈ fs, f.Covers i := by
    intro i
    unfold CStream.InFlight
    rw [e2, e3]
    constructor
    · rintro ⟨k, hk, f, hf, hc⟩
      rcases List.mem_append.mp hk with hk | hk
      · rw [List.getElem?_append_left (h.liveIn k hk)] at hf
        exact .inl ⟨k, hk, f, hf, hc⟩
      · obtain ⟨j, _, rfl⟩ := List.mem_map.mp hk
        rw [List.getElem?_append_right (by omega)] at hf
        exact .inr ⟨f, List.mem_of_getElem? hf, hc⟩
    · rintro (⟨k, hk, f, hf, hc⟩ | ⟨f, hf, hc⟩)
      · exact ⟨k, List.mem_append.mpr (.inl hk), f, frames_get_append hf _, hc⟩
      · obtain ⟨j, hj, rfl⟩ := List.mem_iff_getElem.mp hf
        refine ⟨c.frames.length + j, List.mem_append.mpr (.inr (List.mem_map.mpr ⟨j, List.mem_range.mpr hj, rfl⟩)), fs[j], ?_, hc⟩
        rw [List.getElem?_append_right (by omega), Nat.add_sub_cancel_left]
        exact List.getElem?_eq_getElem hj
  refine ⟨c', fs, rfl, ⟨by rw [e1, e5]; exact h2.ok, ?_, fun i => ?_, fun i hi => ?_, by rw [e5, e6]; exact h.given,
    by rw [e5, e6]; exact h.full, ?_, ?_⟩, e6, by rw [← hc'], by rw [← hc'], e2, e5, e4, by rw [e1]; exact h2, hfl⟩
  · rw [e2, e5]
    intro f hf
    rcases List.mem_append.mp hf with hf | hf
    · exact h.frames f hf
    · exact h2.frames f hf
  · rw [e1, h2.acked, h.acked, hack]
  · rw [e1, h2.sent] at hi
    exact (hfl i).mpr (hi.imp (h.sent i) id)
  · rw [e4, e2, List.length_append]
    intro k hk; have := h.ackIn k hk; omega
  · rw [e3, e2, List.length_append]
    intro k hk
    rcases List.mem_append.mp hk with hk | hk
    · have := h.liveIn k hk; omega
    · obtain ⟨j, hj, rfl⟩ := List.mem_map.mp hk
      have := List.mem_range.mp hj; omega

/-- The effect of an acknowledgment. -/
theorem SInv.acked_ok {c : CStream} (h : SInv c) (k : Nat) : ∃ c', c.acked k = .ok c' ∧ SInv c' ∧ c'.given = c.given ∧
    c'.rx = c.rx ∧ c'.delivered = c.delivered ∧ c'.frames = c.frames ∧ c'.written = c.written ∧
    (∀ i, AckedAt c'.tx.ranges i ∨ SentAt c'.tx.ranges i ↔ AckedAt c.tx.ranges i ∨ SentAt c.tx.ranges i ∨
      ∃ f, c.frames[k]? = some f ∧ f.Covers i) := by
  unfold CStream.acked
  cases hk : c.frames[k]? with
  | none => exact ⟨c, rfl, h, rfl, rfl, rfl, rfl, rfl, fun i => by simp⟩
  | some f =>
    have hof := h.frames f (List.mem_of_getElem? hk)
    obtain ⟨t, h1, h2, _, h4, h5⟩ := h.ok.markAcked (off := f.off) (len := f.data.length) (.inr hof.bound)
    simp only [h1, lift]
    refine ⟨_, rfl, ⟨h2, h.frames, fun i => ?_, fun i hi => ?_, h.given, h.full, ?_, ?_⟩, rfl, rfl, rfl, rfl, rfl, fun i => ?_⟩
    · simp only [h4, h.acked]
      unfold CStream.Acknowledged
      constructor
      · rintro (⟨j, hj, r⟩ | hc)
        · exact ⟨j, List.mem_cons_of_mem _ hj, r⟩
        · exact ⟨k, by simp, f, hk, hc⟩
      · rintro ⟨j, hj, g, hg, hc⟩
        rcases List.mem_cons.mp hj with rfl | hj
        · simp only [hk, Option.some.injEq] at hg
          subst hg; exact .inr hc
        · exact .inl ⟨j, hj, g, hg, hc⟩
    · simp only [h5] at hi
      obtain ⟨j, hj, g, hg, hc⟩ := h.sent i hi.1
      refine ⟨j, List.mem_filter.mpr ⟨hj, ?_⟩, g, hg, hc⟩
      have : j ≠ k := by
        rintro rfl
        rw [hk] at hg; cases hg
        exact hi.2 hc
      simp [this]
    · intro j hj
      rcases List.mem_cons.mp hj with rfl | hj
      · exact (List.getElem?_eq_some_iff.mp hk).1
      · exact h.ackIn j hj
    · intro j hj; exact h.liveIn j (List.mem_filter.mp hj).1
    · simp only [h4, h5, Option.some.injEq, exists_eq_left']
      unfold CFrame.Covers
      by_cases hc : f.off ≤ i ∧ i < f.off + f.data.length
      · simp [hc]
      · simp only [hc, or_false, not_false_iff, and_true]

theorem SInv.lost_ok {c : CStream} (h : SInv c) (k : Nat) : ∃ c', c.lost k = .ok c' ∧ SInv c' ∧ c'.given = c.given ∧
    c'.rx = c.rx ∧ c'.delivered = c.delivered ∧ c'.frames = c.frames ∧ c'.written = c.written := by
  unfold CStream.lost
  cases hk : c.frames[k]? with
  | none => exact ⟨c, rfl, h, rfl, rfl, rfl, rfl, rfl⟩
  | some f =>
    obtain ⟨t, h1, h2, _, _, h4, h5⟩ := h.ok.markLost f.off f.data.length
    simp only [h1, lift]
    refine ⟨_, rfl, ⟨h2, h.frames, fun i => ?_, fun i hi => ?_, h.given, h.full, h.ackIn, ?_⟩, rfl, rfl, rfl, rfl, rfl⟩
    · simp only [h4, h.acked]; rfl
    · obtain ⟨hi1, hi2⟩ := h5 i hi
      obtain ⟨j, hj, g, hg, hc⟩ := h.sent i hi1
      refine ⟨j, List.mem_filter.mpr ⟨hj, ?_⟩, g, hg, hc⟩
      have : j ≠ k := by
        rintro rfl
        rw [hk] at hg; cases hg
        exact hi2 hc
      simp [this]
    · intro j hj; exact h.liveIn j (List.mem_filter.mp hj).1

theorem SInv.resend_ok {c : CStream} (h : SInv c) : ∃ c', c.resend = .ok c' ∧ SInv c' ∧ c'.given = c.given ∧
    c'.rx = c.rx ∧ c'.delivered = c.delivered ∧ c'.frames = c.frames ∧ c'.written = c.written := by
  obtain ⟨t, h1, h2, h3, h4⟩ := unmarkSent_ok h.ok
  unfold CStream.resend
  simp only [h1, lift]
  refine ⟨_, rfl, ⟨h2, h.frames, fun i => ?_, fun i hi => absurd hi (h4 i), h.given, h.full, h.ackIn, ?_⟩, rfl, rfl, rfl, rfl, rfl⟩
  · simp only [h3, h.acked]; rfl
  · intro j hj; cases hj

/-! ## Receiving -/

theorem inbound_ok {s s' : Rx} {off : Nat} {data : Bytes} (hr : inbound s off data = .ok s') : s.inboundFrame off data = .ok s' ∧ s'.received - s'.retired ≤ 65536 := by
  unfold inbound at hr
  split at hr
  · cases hr
  · split at hr
    · cases hr
    · split at hr
      · cases hr
      · split at hr
        · rename_i hb
          cases hr
          exact ⟨by assumption, hb⟩
        · cases hr

theorem RInv.frame {R : Rcv} {total : Nat} {s s' : Rx} {out : Bytes} {off : Nat} {data : Bytes} (h : RInv R total s out)
    (hr : s.inboundFrame off data = .ok s') : Inv (R.add off data) s' ∧ Ok (R.add off data) 0 out ∧
      out.length = s'.retired ∧ s'.retired + s'.held ≤ s'.received ∧ s'.received ≤ total + data.length := by
  have g := Recv.inboundFrame_grows h.inv hr
  have h1 := h.held
  have h2 := h.count
  have g1 := g.retired
  have g2 := g.held
  have g3 := g.mono
  have g4 := g.count
  exact ⟨Recv.inboundFrame_inv h.inv hr, h.right.mono fun i b hb => .inl hb, h.len.trans g.retired.symm, by omega, by omega⟩

theorem inbound_error {R : Rcv} {total : Nat} {s : Rx} {out : Bytes} {off : Nat} {data : Bytes} {e : CErr}
    (h : RInv R total s out) (hr : inbound s off data = .error e) : e = .bufferExceeded := by
  unfold inbound at hr
  split at hr
  · cases hr; rfl
  · split at hr
    · cases hr; rfl
    · rename_i s' hs
      have := (h.frame hs).2.2.2.1
      rw [if_neg (by omega)] at hr
      split at hr
      · cases hr
      · cases hr; rfl

/-- What a frame does: `o` is handed to TLS. -/
theorem RInv.receive_ok {R : Rcv} {total : Nat} {s : Rx} {out : Bytes} (h : RInv R total s out) (off : Nat) (data : Bytes) :
    receive s off data = .error .bufferExceeded ∨
    ∃ s' o, receive s off data = .ok (s', o) ∧ RInv (R.add off data) (total + data.length) s' (out ++ o) := by
  unfold receive
  cases hi : inbound s off data with
  | error e => left; rw [inbound_error h hi]
  | ok s1 =>
    right
    obtain ⟨f1, f2⟩ := inbound_ok hi
    obtain ⟨g1, g2, g3, g4, g5⟩ := h.frame f1
    simp only
    by_cases hd : s1.dataReady = true
    · rw [if_pos hd]
      obtain ⟨s2, o, r1, r2, r3, r4, r5, r6⟩ := Recv.read_inv g1 s1.bytesReady
      obtain ⟨r7, r8⟩ := Recv.read_held g1 r1
      have hb := Recv.bytesReady_spec g1
      have hlen : o.length = s1.bytesReady := by
        rcases Nat.lt_or_eq_of_le r5 with hlt | heq
        · exact absurd (hb.1 _ (by omega) (by omega)) (r6 hlt)
        · exact heq
      have hre : s1.readToEnd = .ok (s2, o) := r1
      rw [hre]
      refine ⟨s2, o, rfl, r2, ?_, by rw [List.length_append]; omega, by omega, by omega, ?_, by omega⟩
      · apply g2.append
        rw [g3, Nat.zero_add]; exact r3
      · rw [r4, hlen]; exact hb.2
    · rw [if_neg hd]
      refine ⟨s1, [], rfl, g1, by rw [List.append_nil]; exact g2, by rw [List.append_nil]; exact g3, g4, g5, ?_, by omega⟩
      rw [← Recv.dataReady_spec g1]; exact hd

end Neqo.Crypto
