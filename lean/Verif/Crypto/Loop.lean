import Verif.Crypto.Chunks

/-! # `write_frame`: lemmas -/
namespace Neqo.Crypto
open Neqo.Codec (Bytes)
open Neqo.Send
open Neqo.Frm (Wire Frame)

/-- The frame is on the wire as it should be, with bytes of `w` at their place. -/
structure CFrame.Of (f : CFrame) (w : Bytes) : Prop where
  bound : f.off + f.data.length ≤ w.length
  data : f.data = (w.drop f.off).take f.data.length
  wire : Wire (.crypto f.off f.data) f.wire

theorem Chunk.of {rem off : Nat} {d w : Bytes} {f : CFrame} (h : Chunk rem off d f)
    (hd : d = (w.drop off).take d.length) (hb : off + d.length ≤ w.length) : f.Of w := by
  have h1 := h.low
  have h2 := h.high
  refine ⟨by omega, ?_, h.wire⟩
  have h3 := h.data
  rw [hd, List.drop_take, List.drop_drop, List.take_take, show off + (f.off - off) = f.off by omega,
    Nat.min_eq_left (by omega)] at h3
  exact h3

theorem CFrame.Of.append {f : CFrame} {w : Bytes} (h : f.Of w) (x : Bytes) : f.Of (w ++ x) := by
  refine ⟨by rw [List.length_append]; have := h.bound; omega, ?_, h.wire⟩
  rw [List.drop_append_of_le_length (by have := h.bound; omega), List.take_append_of_le_length]
  · exact h.data
  · rw [List.length_drop]; have := h.bound; omega

/-- Sum of the lengths on the wire. -/
def size (fs : List CFrame) : Nat := (fs.map (·.wire.length)).sum

/-- Two frames have no byte in common. -/
def Apart (f g : CFrame) : Prop := ∀ i, ¬ (f.Covers i ∧ g.Covers i)

/-- What a call to `write_frame` does. -/
structure Wrote (w : Bytes) (sni : Bool) (limit rem : Nat) (t t' : Tx) (fs : List CFrame) : Prop where
  ok : TxOk t' w
  acked : ∀ i, AckedAt t'.ranges i ↔ AckedAt t.ranges i
  sent : ∀ i, SentAt t'.ranges i ↔ SentAt t.ranges i ∨ ∃ f ∈ fs, f.Covers i
  frames : ∀ f ∈ fs, f.Of w
  fresh : ∀ f ∈ fs, ∀ i, f.Covers i → ¬ AckedAt t.ranges i ∧ ¬ SentAt t.ranges i
  apart : fs.Pairwise Apart
  fits : size fs ≤ rem
  progress : 3 ≤ limit → 21 ≤ rem → t.first.2 ≠ none → ∃ f ∈ fs, f.data ≠ []
  all : sni = false → 11 ≤ rem - size fs → ∀ i, i < w.length → AckedAt t'.ranges i ∨ SentAt t'.ranges i

theorem writeLoop_ok {sni : Bool} {limit split : Nat} {w : Bytes} (hw : w.length < 2 ^ 62) (hl : 0 < limit) :
    ∀ (fuel : Nat) (t : Tx) (rem : Nat), TxOk t w → rem < fuel →
    ∃ t' fs, writeLoop sni limit split fuel t rem = .ok (t', fs) ∧ Wrote w sni limit rem t t' fs := by
  intro fuel
  induction fuel with
  | zero => intro t rem _ h; omega
  | succ fuel ih =>
    intro t rem ht hfuel
    unfold writeLoop
    obtain ⟨r, n1, n2, n3⟩ := ht.next split
    obtain ⟨k1, k2, k3, k4, k5⟩ := ht.first
    obtain ⟨s0, s1⟩ := ht.first_spec
    rw [n1]
    have stop : (∀ i, i < w.length → AckedAt t.ranges i ∨ SentAt t.ranges i) ∨ rem < 11 →
        (t.first.2 ≠ none → rem < 11) → Wrote w sni limit rem t t.first.1 [] := by
      intro hall hno
      refine ⟨k1, k4, fun i => by rw [k5 i]; simp, by simp, by simp, .nil, by simp [size], ?_, ?_⟩
      · intro _ h2 h3; have := hno h3; omega
      · intro _ h i hi
        simp only [size, List.map_nil, List.sum_nil, Nat.sub_zero] at h
        rcases hall with hall | hall
        · rw [k4, k5]; exact hall i hi
        · omega
    cases hf : t.first.2 with
    | none =>
      rw [n2 hf]
      exact ⟨_, _, rfl, stop (.inl (s0 hf)) (fun h => absurd hf h)⟩
    | some p =>
      obtain ⟨start, ml⟩ := p
      obtain ⟨data, d0, d1, d2, d3, d4⟩ := n3 start ml hf
      obtain ⟨p1, p2, p3, p4, p5⟩ := s1 start ml hf
      rw [d0]
      simp only
      have hne : data ≠ [] := List.length_pos_iff.mp d1
      obtain ⟨x, y, c1, c2, c3, c4, c5, _, c7, c8⟩ := chunks_ok (sni := sni) (limit := limit) (rem := rem) (off := start)
        (data := data) (by omega) hne hl
      rw [c1]
      have fresh : ∀ {q : Nat} {f : CFrame}, Chunk q start data f → ∀ i, f.Covers i →
          ¬ AckedAt t.ranges i ∧ ¬ SentAt t.ranges i := by
        intro q f hc i hi
        refine p4 i (by have := hc.low; have := hi.1; omega) fun l hml => ?_
        have := d4 l hml
        have := hc.high
        have := hi.2
        omega
      -- one frame, and then the rest
      have one : ∀ f, Chunk rem start data f → (3 ≤ limit → 21 ≤ rem → f.data ≠ []) →
          ∃ t' fs, (match t.first.1.markSent f.off f.data.length with
            | .error e => .error e
            | .ok t =>
              match writeLoop sni limit split fuel t (rem - f.wire.length) with
              | .error e => .error e
              | .ok (t, fs) => .ok (t, f :: fs) : Except Err (Tx × List CFrame)) = .ok (t', fs) ∧
            Wrote w sni limit rem t t' fs := by
        intro f hc hp
        have hof := hc.of d3 d2
        obtain ⟨t2, m1, m2, _, _, m5, m6⟩ := k1.markSent (off := f.off) (len := f.data.length) (.inr hof.bound)
        rw [m1]
        simp only
        have hlong := hc.longer
        have hfit := hc.fits
        obtain ⟨t3, fs, w1, w2⟩ := ih t2 (rem - f.wire.length) m2 (by omega)
        rw [w1]
        simp only
        have hsent : ∀ i, SentAt t2.ranges i ↔ SentAt t.ranges i ∨ f.Covers i := by
          intro i
          rw [m6 i, k4, k5]
          constructor
          · rintro (h | ⟨h1, h2, _⟩)
            · exact .inl h
            · exact .inr ⟨h1, h2⟩
          · rintro (h | h)
            · exact .inl h
            · exact .inr ⟨h.1, h.2, (fresh hc i h).1⟩
        refine ⟨t3, f :: fs, rfl, ⟨w2.ok, fun i => ?_, fun i => ?_, ?_, ?_, ?_, ?_, ?_, ?_⟩⟩
        · rw [w2.acked, m5, k4]
        · rw [w2.sent, hsent]
          simp only [List.mem_cons, exists_eq_or_imp]
          exact or_assoc
        · intro g hg
          rcases List.mem_cons.mp hg with rfl | hg
          · exact hof
          · exact w2.frames g hg
        · intro g hg i hi
          rcases List.mem_cons.mp hg with rfl | hg
          · exact fresh hc i hi
          · obtain ⟨a, b⟩ := w2.fresh g hg i hi
            rw [m5, k4] at a
            rw [hsent] at b
            exact ⟨a, fun h => b (.inl h)⟩
        · refine List.pairwise_cons.mpr ⟨fun g hg i hi => ?_, w2.apart⟩
          have := (w2.fresh g hg i hi.2).2
          rw [hsent] at this
          exact this (.inr hi.1)
        · have := w2.fits
          unfold size at this ⊢
          rw [List.map_cons, List.sum_cons]; omega
        · intro h1 h2 _
          exact ⟨f, by simp, hp h1 h2⟩
        · intro h0 h
          unfold size at h
          rw [List.map_cons, List.sum_cons] at h
          exact w2.all h0 (by unfold size; omega)
      cases x with
      | none =>
        cases y with
        | none =>
          have := c7 rfl rfl
          exact ⟨_, _, rfl, stop (.inr this) (fun _ => this)⟩
        | some g =>
          have hg := c3 g rfl
          simp only [Option.map_none, Option.getD_none, Nat.sub_zero] at hg
          exact one g hg fun h1 h2 => by
            obtain ⟨f, hf | hf, h3⟩ := c5 h1 h2
            · cases hf
            · cases hf; exact h3
      | some f =>
        have hf' := c2 f rfl
        cases y with
        | none =>
          exact one f hf' fun h1 h2 => by
            obtain ⟨f, hf | hf, h3⟩ := c5 h1 h2
            · cases hf; exact h3
            · cases hf
        | some g =>
          have hg := c3 g rfl
          simp only [Option.map_some, Option.getD_some] at hg
          have hfo := hf'.of d3 d2
          have hgo := hg.of d3 d2
          have hfg := c4 f g rfl rfl
          obtain ⟨t2, m1, m2, _, _, m5, m6⟩ := k1.markSent (off := f.off) (len := f.data.length) (.inr hfo.bound)
          obtain ⟨t3, q1, q2, _, _, q5, q6⟩ := m2.markSent (off := g.off) (len := g.data.length) (.inr hgo.bound)
          simp only
          rw [m1]
          simp only
          rw [q1]
          refine ⟨t3, [f, g], rfl, ⟨q2, fun i => ?_, fun i => ?_, ?_, ?_, ?_, ?_, ?_, ?_⟩⟩
          · rw [q5, m5, k4]
          · rw [q6, m5, m6, k4, k5]
            simp only [List.mem_cons, List.not_mem_nil, or_false, exists_eq_or_imp, exists_eq_left]
            constructor
            · rintro ((h | ⟨h1, h2, _⟩) | ⟨h1, h2, _⟩)
              · exact .inl h
              · exact .inr (.inl ⟨h1, h2⟩)
              · exact .inr (.inr ⟨h1, h2⟩)
            · rintro (h | h | h)
              · exact .inl (.inl h)
              · exact .inl (.inr ⟨h.1, h.2, (fresh hf' i h).1⟩)
              · exact .inr ⟨h.1, h.2, (fresh hg i h).1⟩
          · intro e he
            rcases List.mem_cons.mp he with rfl | he
            · exact hfo
            · rw [List.mem_singleton.mp he]; exact hgo
          · intro e he i hi
            rcases List.mem_cons.mp he with rfl | he
            · exact fresh hf' i hi
            · rw [List.mem_singleton.mp he] at hi; exact fresh hg i hi
          · refine List.pairwise_pair.mpr fun i hi => ?_
            have := hi.1.1; have := hi.2.2; omega
          · have h1 := hf'.fits
            have h2 := hg.fits
            simp only [size, List.map_cons, List.map_nil, List.sum_cons, List.sum_nil]
            omega
          · intro h1 h2 _
            obtain ⟨e, he, h3⟩ := c5 h1 h2
            refine ⟨e, ?_, h3⟩
            rcases he with he | he <;> cases he <;> simp
          · intro h; cases c8 h

theorem write_ok {sni : Bool} {limit rem split : Nat} {t : Tx} {w : Bytes} (hw : w.length < 2 ^ 62) (hl : 0 < limit)
    (h : TxOk t w) : ∃ t' fs, write sni limit rem split t = .ok (t', fs) ∧ Wrote w sni limit rem t t' fs :=
  writeLoop_ok hw hl (rem + 1) t rem h (Nat.lt_succ_self _)

theorem unmarkSent_ok {t : Tx} {w : Bytes} (h : TxOk t w) :
    ∃ t', unmarkSent t = .ok t' ∧ TxOk t' w ∧ (∀ i, AckedAt t'.ranges i ↔ AckedAt t.ranges i) ∧
      ∀ i, ¬ SentAt t'.ranges i := by
  obtain ⟨r, h1, h2, h3, h4, h5⟩ := Send.unmarkSent_ok h.ranges
  unfold unmarkSent
  rw [h1]
  refine ⟨_, rfl, ⟨h2, ?_, fun i hi => h.acked i ((h4 i).mp hi), fun i hi => absurd hi (h5 i), h.size⟩, h4, h5⟩
  simp only [h3]; exact h.buf

end Neqo.Crypto
