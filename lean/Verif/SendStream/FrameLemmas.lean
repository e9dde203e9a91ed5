import Verif.SendStream.Step

/-! # What a send stream writes into a packet -/
namespace Neqo.Send
open Neqo.Codec (Bytes varintLen maxVarint)
open Neqo.Flow (SFc)

theorem Marks.covered {tx : Tx} {r : Rec} (h : Marks tx r) {i : Nat} (hx : AckedAt tx.ranges i ∨ SentAt tx.ranges i) :
    r.Covered i := hx.imp (h.acked i).mp (h.sent i)

theorem tx_next_none {tx : Tx} {r : Rec} (h : Marks tx r) (hf : tx.first.2 = none) : ∀ i, i < r.written.length → r.Covered i :=
  fun i hi => h.covered (h.ok.first_spec.1 hf i hi)

/-- The whole story of `next_bytes`. -/
theorem nextBytes_spec {h : Hist} (hi : HInv h) {split : Nat} {retrans : Bool} {s' : Stream} {o : Option (Nat × Bytes)}
    (he : h.s.nextBytes split retrans = .ok (s', o)) :
    h.s.hasNext retrans = o.isSome ∧
    (∀ off data, o = some (off, data) →
      (∀ j, j < off → h.r.Covered j) ∧
      (data = [] → h.s.state.finOffset = some off) ∧
      (h.r.resetCalled = true → off + data.length ≤ h.r.committed) ∧
      (retrans = true → h.s.state.finOffset = none → off < h.s.retransOff)) ∧
    (o = none → (∀ i, i < h.r.goal → (retrans = true → i < h.s.retransOff) → h.r.Covered i) ∧
      (h.r.resetCalled = false → h.r.closed = true → h.r.FinInFlight ∨ h.r.FinAcked)) := by
  have hst := hi.st
  unfold Stream.nextBytes at he
  unfold Stream.hasNext
  cases hs : h.s.state with
  | ready fc =>
    rw [hs] at he hst
    cases he
    obtain ⟨h1, h2, h3, h4, _⟩ := hst
    refine ⟨rfl, by rintro _ _ ⟨⟩, fun _ => ⟨fun i hil => ?_, fun _ hc => ?_⟩⟩
    · unfold Rec.goal at hil
      rw [h4, h1] at hil
      exact absurd hil (Nat.not_lt_zero _)
    · rw [h3] at hc; cases hc
  | send fc tx c =>
    rw [hs] at he hst
    obtain ⟨h1, h2, h3, h4, h5, h6, h7, h8⟩ := hst
    obtain ⟨r, e1, e2, e3⟩ := h7.ok.next split
    simp only [e1] at he
    cases he
    simp only
    cases hf : tx.first.2 with
    | none =>
      rw [e2 hf]
      simp only [Tx.hasNextBefore, Tx.hasNext, hf]
      refine ⟨by cases retrans <;> rfl, by rintro _ _ ⟨⟩, fun _ => ⟨fun i hil _ => ?_, fun _ hc => ?_⟩⟩
      · unfold Rec.goal at hil
        rw [h2] at hil
        exact tx_next_none h7 hf i hil
      · rw [h1] at hc; cases hc
    | some p =>
      obtain ⟨start, ml⟩ := p
      obtain ⟨data, d1, d2, d3, d4, d5⟩ := e3 start ml hf
      obtain ⟨g1, g2, g3, g4, g5⟩ := h7.ok.first_spec.2 start ml hf
      rw [d1]
      simp only [Tx.hasNextBefore, Tx.hasNext, hf]
      cases retrans with
      | false =>
        refine ⟨rfl, ?_, by rintro ⟨⟩⟩
        rintro off dat ⟨⟩
        refine ⟨fun j hj => h7.covered (g3 j hj), ?_, ?_, by rintro ⟨⟩⟩
        · rintro rfl; cases d2
        · intro hx; rw [h2] at hx; cases hx
      | true =>
        simp only [if_true]
        unfold cutAt
        by_cases hlt : h.s.retransOff > start
        · rw [if_pos hlt]
          refine ⟨by simp; omega, ?_, by rintro ⟨⟩⟩
          rintro off dat ⟨⟩
          refine ⟨fun j hj => h7.covered (g3 j hj), ?_, ?_, fun _ _ => hlt⟩
          · intro hx
            have := congrArg List.length hx
            rw [List.length_take, List.length_nil] at this
            omega
          · intro hx; rw [h2] at hx; cases hx
        · rw [if_neg hlt]
          refine ⟨by simp; omega, by rintro _ _ ⟨⟩, fun _ => ⟨fun i hil hr => ?_, fun _ hc => ?_⟩⟩
          · have := hr trivial
            exact h7.covered (g3 i (by omega))
          · rw [h1] at hc; cases hc
  | dataSent tx fs fa c =>
    rw [hs] at he hst
    obtain ⟨h1, h2, h3, h4, h5, h6, h7, h8, h9, h10⟩ := hst
    obtain ⟨r, e1, e2, e3⟩ := h6.ok.next split
    simp only [e1] at he
    cases he
    simp only
    cases hf : tx.first.2 with
    | none =>
      rw [e2 hf]
      simp only [Tx.hasNext, hf]
      have hall : ∀ i, i < h.r.goal → h.r.Covered i := by
        intro i hil
        unfold Rec.goal at hil
        rw [h2] at hil
        exact tx_next_none h6 hf i hil
      cases fs with
      | true =>
        refine ⟨rfl, by rintro _ _ ⟨⟩, fun _ => ⟨fun i hil _ => hall i hil, fun _ _ => h8 rfl⟩⟩
      | false =>
        refine ⟨rfl, ?_, by rintro ⟨⟩⟩
        rintro off dat ⟨⟩
        refine ⟨fun j hj => hall j ?_, fun _ => rfl, ?_, by rintro _ ⟨⟩⟩
        · unfold Rec.goal; rw [h2]; rw [h6.ok.used] at hj; exact hj
        · intro hx; rw [h2] at hx; cases hx
    | some p =>
      obtain ⟨start, ml⟩ := p
      obtain ⟨data, d1, d2, d3, d4, d5⟩ := e3 start ml hf
      obtain ⟨g1, g2, g3, g4, g5⟩ := h6.ok.first_spec.2 start ml hf
      rw [d1]
      simp only [Tx.hasNext, hf]
      refine ⟨rfl, ?_, by rintro ⟨⟩⟩
      rintro off dat ⟨⟩
      refine ⟨fun j hj => h6.covered (g3 j hj), ?_, ?_, by rintro _ ⟨⟩⟩
      · rintro rfl; cases d2
      · intro hx; rw [h2] at hx; cases hx
  | dataRecvd a b =>
    rw [hs] at he hst
    cases he
    obtain ⟨h1, h2, h3, h4, h5, h6, h7, h8, h9⟩ := hst
    refine ⟨rfl, by rintro _ _ ⟨⟩, fun _ => ⟨fun i hil _ => ?_, fun _ hc => .inr h9⟩⟩
    unfold Rec.goal at hil
    rw [h2] at hil
    exact .inl (h8 i hil)
  | resetSent err final rel prio fr fw =>
    rw [hs] at he hst
    cases he
    obtain ⟨h1, h2, h3, h4, h5, h6, h7, _⟩ := hst
    refine ⟨rfl, by rintro _ _ ⟨⟩, fun _ => ⟨fun i hil _ => ?_, fun hx => ?_⟩⟩
    · unfold Rec.goal at hil
      rw [h1, if_pos rfl] at hil
      exact .inl (h7 i (by omega))
    · rw [h1] at hx; cases hx
  | resetRecvd a b =>
    rw [hs] at he hst
    cases he
    obtain ⟨h1, h2, h3, h4, h5, h6⟩ := hst
    refine ⟨rfl, by rintro _ _ ⟨⟩, fun _ => ⟨fun i hil _ => ?_, fun hx => ?_⟩⟩
    · unfold Rec.goal at hil
      rw [h1, if_pos rfl] at hil
      exact .inl (h4 i hil)
    · rw [h1] at hx; cases hx
  | resetReliable tx err final rel prio acked =>
    rw [hs] at he hst
    obtain ⟨h1, h2, h3, h4, h5, h6, h7, h8, h9⟩ := hst
    obtain ⟨r, e1, e2, e3⟩ := h4.ok.next split
    have hcm := hi.rcd.comm
    simp only [e1] at he
    cases he
    simp only
    have hfin : h.r.resetCalled = false → h.r.closed = true → h.r.FinInFlight ∨ h.r.FinAcked := by
      intro hx; rw [h1] at hx; cases hx
    cases hf : tx.first.2 with
    | none =>
      rw [e2 hf]
      simp only [Tx.hasNextBefore, hf]
      refine ⟨rfl, by rintro _ _ ⟨⟩, fun _ => ⟨fun i hil _ => ?_, hfin⟩⟩
      unfold Rec.goal at hil
      rw [h1, if_pos rfl] at hil
      exact tx_next_none h4 hf i (by omega)
    | some p =>
      obtain ⟨start, ml⟩ := p
      obtain ⟨data, d1, d2, d3, d4, d5⟩ := e3 start ml hf
      obtain ⟨g1, g2, g3, g4, g5⟩ := h4.ok.first_spec.2 start ml hf
      rw [d1]
      simp only [Tx.hasNextBefore, hf]
      have hlim : h.s.relLimit rel retrans ≤ rel := by
        unfold Stream.relLimit; split <;> omega
      unfold cutAt
      by_cases hlt : h.s.relLimit rel retrans > start
      · rw [if_pos hlt]
        refine ⟨by simp; omega, ?_, by rintro ⟨⟩⟩
        rintro off dat ⟨⟩
        refine ⟨fun j hj => h4.covered (g3 j hj), ?_, ?_, ?_⟩
        · intro hx
          have := congrArg List.length hx
          rw [List.length_take, List.length_nil] at this
          omega
        · intro _
          rw [List.length_take]
          omega
        · intro hr _
          unfold Stream.relLimit at hlt
          rw [if_pos hr] at hlt
          omega
      · rw [if_neg hlt]
        refine ⟨by simp; omega, by rintro _ _ ⟨⟩, fun _ => ⟨fun i hil hr => ?_, hfin⟩⟩
        unfold Rec.goal at hil
        rw [h1, if_pos rfl] at hil
        apply h4.covered (g3 i ?_)
        unfold Stream.relLimit at hlt
        cases retrans with
        | true =>
          have := hr rfl
          rw [if_pos rfl] at hlt
          omega
        | false => rw [if_neg (by decide)] at hlt; omega

/-! ## Sizes -/

theorem framesSize_append {id : Nat} {a b : List Frame} {n m : Nat} (h1 : framesSize id a = .ok n)
    (h2 : framesSize id b = .ok m) : framesSize id (a ++ b) = .ok (n + m) := by
  induction a generalizing n with
  | nil => cases h1; simpa using h2
  | cons f fs ih =>
    simp only [framesSize] at h1
    cases hf : frameSize id f with
    | error e => rw [hf] at h1; cases h1
    | ok x =>
      rw [hf] at h1
      cases hfs : framesSize id fs with
      | error e => rw [hfs] at h1; cases h1
      | ok y =>
        rw [hfs] at h1
        cases h1
        simp only [List.cons_append, framesSize, hf, ih hfs]
        congr 1; omega

theorem framesSize_one {id : Nat} {f : Frame} {n : Nat} (h : frameSize id f = .ok n) : framesSize id [f] = .ok n := by
  simp only [framesSize, h]; rfl

/-- `w` says that frames of total size at most what was used were written. -/
def Fits (id rem : Nat) (w : Wrote) : Prop := ∃ n, framesSize id w.frames = .ok n ∧ w.rem + n ≤ rem

theorem Fits.nothing (id rem : Nat) : Fits id rem ⟨rem, []⟩ := ⟨0, rfl, Nat.le_refl _⟩

theorem vlens_size {vs : List Nat} {n : Nat} (h : vlens vs = .ok n) : n ≤ 8 * vs.length := by
  induction vs generalizing n with
  | nil => cases h; omega
  | cons v vs ih =>
    simp only [vlens] at h
    cases hv : vlen v with
    | error e => rw [hv] at h; cases h
    | ok a =>
      rw [hv] at h
      cases hvs : vlens vs with
      | error e => rw [hvs] at h; cases h
      | ok b =>
        rw [hvs] at h
        cases h
        have := ih hvs
        have ha : a ≤ 8 := by
          unfold vlen varintLen at hv
          split at hv
          · rename_i n hn
            cases hv
            split at hn
            · cases hn; omega
            · split at hn
              · cases hn; omega
              · split at hn
                · cases hn; omega
                · split at hn
                  · cases hn; omega
                  · cases hn
          · cases hv
        simp only [List.length_cons]; omega

/-! ## The three writers -/

/-- Frames produced by `write_stream_frame`. -/
theorem writeData_spec {s : Stream} {conn : SFc} {finOff : Option Nat} {rem off : Nat} {data : Bytes} {s' : Stream}
    {conn' : SFc} {w : Wrote} (hid : s.id ≤ maxVarint) (hoff : off ≤ maxVarint) (hmax : data.length ≤ txMax)
    (he : s.writeData conn finOff rem off data = .ok (s', conn', w)) :
    Fits s.id rem w ∧
    ((w.frames = [] ∧ s' = s ∧ (rem < 18 ∨ (data = [] ∧ finOff ≠ some off))) ∨
     (∃ l fill, l ≤ data.length ∧ w.frames = [.stream off (data.take l) (finOff == some (off + l)) fill] ∧
       (l = 0 → finOff = some off) ∧ (data ≠ [] → 18 ≤ rem → 0 < l))) := by
  obtain ⟨ov, o1, o2, o3⟩ := overhead_ok hid hoff
  unfold Stream.writeData at he
  rw [o1] at he
  simp only at he
  by_cases hov : ov > rem
  · rw [if_pos hov] at he
    cases he
    exact ⟨.nothing _ _, .inl ⟨rfl, rfl, .inl (by omega)⟩⟩
  rw [if_neg hov] at he
  obtain ⟨l, f, e4, e5, e6⟩ := lengthAndFill_ok (n := data.length) (space := rem - ov) hmax
  rw [e4] at he
  simp only at he
  by_cases hz : l = 0 ∧ (finOff == some (off + l)) = false
  · rw [if_pos hz] at he
    cases he
    refine ⟨.nothing _ _, .inl ⟨rfl, rfl, ?_⟩⟩
    by_cases hd : data = []
    · refine .inr ⟨hd, fun hx => ?_⟩
      rw [hz.1, Nat.add_zero, hx] at hz
      simp at hz
    · left
      have := List.length_pos_iff.mpr hd
      omega
  rw [if_neg hz] at he
  have hll : ∃ ll, (if f = true then .ok 0 else vlen l : Except Err Nat) = .ok ll ∧
      (f = false → l + ll + minFrame ≤ rem - ov) ∧ (f = true → ll = 0) := by
    cases f with
    | true => exact ⟨0, rfl, by simp, fun _ => rfl⟩
    | false =>
      obtain ⟨ll, h1, h2⟩ := e6 rfl
      exact ⟨ll, by simpa using h1, fun _ => h2, by simp⟩
  obtain ⟨ll, hll, hfit, hfill⟩ := hll
  rw [hll] at he
  simp only at he
  have hl0 : l = 0 → finOff = some off := by
    intro h0
    have : ¬ (finOff == some (off + l)) = false := fun hx => hz ⟨h0, hx⟩
    simpa [h0] using this
  cases hm : s.markSent conn off l (finOff == some (off + l)) with
  | error e => rw [hm] at he; cases he
  | ok r =>
    rw [hm] at he
    obtain ⟨s1, conn1⟩ := r
    cases he
    have hlen : (data.take l).length = l := by rw [List.length_take]; omega
    refine ⟨?_, .inr ⟨l, f, by omega, rfl, hl0, fun hd hr => ?_⟩⟩
    · cases f with
      | true =>
        refine ⟨ov + l, framesSize_one ?_, ?_⟩
        · simp only [frameSize, o1, if_true, hlen]
        · simp only [if_true]
          omega
      | false =>
        refine ⟨ov + ll + l, framesSize_one ?_, ?_⟩
        · simp only [Bool.false_eq_true, if_false] at hll
          simp only [frameSize, o1, Bool.false_eq_true, if_false, hlen, hll]
        · have := hfit rfl
          simp only [Bool.false_eq_true, if_false]
          omega
    · have := List.length_pos_iff.mpr hd
      omega

/-- The STREAM frame, if any, that one call writes. -/
structure StreamSpec (h : Hist) (p : Prio) (rem : Nat) (w : Wrote) : Prop where
  fits : Fits h.s.id rem w
  shape : w.frames = [] ∨ ∃ off d fin fill, w.frames = [.stream off d fin fill]
  frame : ∀ off d fin fill, Frame.stream off d fin fill ∈ w.frames →
    (∀ j, j < off → h.r.Covered j) ∧ (h.r.resetCalled = true → off + d.length ≤ h.r.committed ∧ fin = false) ∧
    (h.r.resetCalled = false → (fin = true ↔ h.r.closed = true ∧ off + d.length = h.r.written.length)) ∧
    (d = [] → fin = true)
  none : w.frames = [] → 18 ≤ rem → p = h.s.prio →
    (∀ i, i < h.r.goal → h.r.Covered i) ∧ (h.r.resetCalled = false → h.r.closed = true → h.r.FinInFlight ∨ h.r.FinAcked)
  noneRetrans : w.frames = [] → 18 ≤ rem → p = h.s.effPrio →
    (∀ i, i < h.r.goal → i < h.s.retransOff → h.r.Covered i)
  has : (∀ retrans, h.s.mode p = some retrans → h.s.hasNext retrans = false) → w.frames = []
  hasNot : w.frames = [] → 18 ≤ rem → ∀ retrans, h.s.mode p = some retrans → h.s.hasNext retrans = false

theorem finOffset_iff {h : Hist} (hi : HInv h) (hr : h.r.resetCalled = false) (n : Nat)
    (hn : ∃ tx, h.s.state.tx? = some tx) :
    h.s.state.finOffset = some n ↔ h.r.closed = true ∧ n = h.r.written.length := by
  constructor
  · exact finOffset_closed hi.st
  · rintro ⟨h1, rfl⟩
    have hst := hi.st
    cases hs : h.s.state with
    | dataSent tx fs fa c =>
      rw [hs] at hst
      obtain ⟨_, _, _, _, _, h6, _⟩ := hst
      simp only [State.finOffset, h6.ok.used]
    | send fc tx c =>
      rw [hs] at hst
      rw [hst.1] at h1; cases h1
    | resetReliable tx err final rel prio acked =>
      rw [hs] at hst
      rw [hst.1] at hr; cases hr
    | ready fc => rw [hs] at hn; obtain ⟨_, hn⟩ := hn; cases hn
    | dataRecvd _ _ => rw [hs] at hn; obtain ⟨_, hn⟩ := hn; cases hn
    | resetSent _ _ _ _ _ _ => rw [hs] at hn; obtain ⟨_, hn⟩ := hn; cases hn
    | resetRecvd _ _ => rw [hs] at hn; obtain ⟨_, hn⟩ := hn; cases hn

theorem finOffset_reset {h : Hist} (hi : HInv h) (hr : h.r.resetCalled = true) : h.s.state.finOffset = none := by
  have hst := hi.st
  cases hs : h.s.state with
  | dataSent tx fs fa c => rw [hs] at hst; rw [hst.2.1] at hr; cases hr
  | _ => rfl

theorem mode_prio (s : Stream) : s.mode s.prio = some false := by unfold Stream.mode; rw [if_pos rfl]

theorem mode_eff (s : Stream) : s.mode s.effPrio = some false ∨ s.mode s.effPrio = some true := by
  unfold Stream.mode
  split
  · exact .inl rfl
  · rw [if_pos rfl]; exact .inr rfl

theorem writeStream_spec {h : Hist} (hi : HInv h) {conn : SFc} {p : Prio} {rem split : Nat} {s' : Stream} {conn' : SFc}
    {w : Wrote} (he : h.s.writeStream conn p rem split = .ok (s', conn', w)) : StreamSpec h p rem w := by
  unfold Stream.writeStream at he
  cases hm : h.s.mode p with
  | none =>
    rw [hm] at he
    cases he
    refine ⟨.nothing _ _, .inl rfl, by rintro _ _ _ _ ⟨⟩, fun _ _ hp => ?_, fun _ _ hp => ?_, fun _ => rfl, fun _ _ r hr => ?_⟩
    · rw [hp, mode_prio] at hm; cases hm
    · rw [hp] at hm; rcases mode_eff h.s with h1 | h1 <;> rw [h1] at hm <;> cases hm
    · rw [hm] at hr; cases hr
  | some retrans =>
    rw [hm] at he
    simp only at he
    obtain ⟨s1, o, n1, n2, n3, n4, n5⟩ := nextBytes_ok hi split retrans
    obtain ⟨q1, q2, q3⟩ := nextBytes_spec hi n1
    rw [n1] at he
    have hprio : p = h.s.prio → retrans = false := by
      intro hp; rw [hp, mode_prio] at hm; cases hm; rfl
    cases o with
    | none =>
      cases he
      refine ⟨.nothing _ _, .inl rfl, by rintro _ _ _ _ ⟨⟩, fun _ _ hp => ?_, fun _ _ hp => ?_, fun _ => rfl, fun _ _ r hr => ?_⟩
      · obtain ⟨a, b⟩ := q3 rfl
        refine ⟨fun i hil => a i hil ?_, b⟩
        intro hx; rw [hprio hp] at hx; cases hx
      · obtain ⟨a, b⟩ := q3 rfl
        exact fun i hil hi2 => a i hil (fun _ => hi2)
      · rw [hm] at hr; cases hr; simpa using q1
    | some pr =>
      obtain ⟨off, data⟩ := pr
      obtain ⟨ho, tx1, htx1⟩ := n5 off data rfl
      obtain ⟨a1, a2, a3, a4⟩ := q2 off data rfl
      have htx : ∃ tx, h.s.state.tx? = some tx := by
        cases hx : h.s.state.tx? with
        | some tx => exact ⟨tx, rfl⟩
        | none => have := (n3 hx).1; cases this
      have hid : s1.id = h.s.id := by
        obtain ⟨tx, hx⟩ := htx
        rw [n4 tx hx]
      have hoff : off ≤ maxVarint := by
        have := ho.le; have := hi.rcd.lim; have := hi.rcd.lim62; omega
      obtain ⟨f1, f2⟩ := writeData_spec (by rw [hid]; exact hi.id) hoff ho.max he
      rw [hid] at f1
      have hsome : h.s.hasNext retrans = true := by rw [q1]; rfl
      rcases f2 with ⟨b1, b2, b3⟩ | ⟨l, fill, c1, c2, c3, c4⟩
      · have hcontra : ¬ 18 ≤ rem := by
          intro hr
          rcases b3 with b3 | ⟨b3, b4⟩
          · omega
          · exact b4 (a2 b3)
        exact ⟨f1, .inl b1, by rw [b1]; rintro _ _ _ _ ⟨⟩, fun _ hr => absurd hr hcontra, fun _ hr => absurd hr hcontra,
          fun _ => b1, fun _ hr => absurd hr hcontra⟩
      · have hne : w.frames ≠ [] := by rw [c2]; simp
        have hlen : (data.take l).length = l := by rw [List.length_take]; omega
        refine ⟨f1, .inr ⟨_, _, _, _, c2⟩, ?_, fun h0 => absurd h0 hne, fun h0 => absurd h0 hne, fun hx => ?_, fun h0 => absurd h0 hne⟩
        · intro off' d fin fill' hmem
          rw [c2, List.mem_singleton] at hmem
          cases hmem
          refine ⟨a1, fun hr => ⟨?_, ?_⟩, fun hr => ?_, fun hd => ?_⟩
          · have := a3 hr
            rw [hlen]; omega
          · rw [finOffset_reset hi hr]; rfl
          · rw [beq_iff_eq, finOffset_iff hi hr _ htx, hlen]
          · have h0 : l = 0 := by rw [← hlen, hd]; rfl
            rw [h0, Nat.add_zero, c3 h0]; simp
        · have := hx retrans hm
          rw [hsome] at this; cases this

theorem writeReset_spec {h : Hist} (hi : HInv h) {p : Prio} {rem : Nat} {s' : Stream} {w : Wrote} {b : Bool}
    (he : h.s.writeReset p rem = .ok (s', w, b)) :
    Fits h.s.id rem w ∧
    (w.frames = [] ∨ ∃ err rel, w.frames = [resetFrame err h.r.written.length rel] ∧ h.r.resetCalled = true ∧
      h.r.committed ≤ rel ∧ rel ≤ h.r.written.length) ∧
    (b = true → w.frames ≠ [] ∧ isResetState h.s.state = true ∧ h.s.state.tx? = none) ∧
    (w.frames = [] → s' = h.s) ∧
    s'.prio = h.s.prio ∧ s'.effPrio = h.s.effPrio ∧ s'.retransOff = h.s.retransOff ∧ s'.id = h.s.id ∧
    (isResetState h.s.state = false → s' = h.s) ∧
    (rem ≤ 40 + w.rem) := by
  have hst := hi.st
  unfold Stream.writeReset at he
  cases hs : h.s.state with
  | resetSent err final rel prio fr fw =>
    rw [hs] at he hst
    obtain ⟨h1, h2, h3, h4, h5, h6, _⟩ := hst
    simp only at he
    by_cases hp : prio ≠ some p
    · rw [if_pos hp] at he; cases he
      exact ⟨.nothing _ _, .inl rfl, by rintro ⟨⟩, fun _ => rfl, rfl, rfl, rfl, rfl, by rintro ⟨⟩, Nat.le_add_left _ _⟩
    rw [if_neg hp] at he
    cases hv : vlens (resetValues h.s.id err final rel) with
    | error e => rw [hv] at he; cases he
    | ok n =>
      rw [hv] at he
      simp only at he
      by_cases hn : n ≤ rem
      · rw [if_pos hn] at he
        cases he
        have hn40 : n ≤ 40 := by
          have := vlens_size hv
          unfold resetValues at this
          split at this <;> simp at this <;> omega
        refine ⟨⟨n, framesSize_one ?_, by simp only; omega⟩, .inr ⟨err, rel, by rw [h3], h1, h5, by omega⟩,
          fun _ => ⟨by simp, rfl, rfl⟩, by rintro ⟨⟩, rfl, rfl, rfl, rfl, by rintro ⟨⟩, by simp only; omega⟩
        unfold resetValues at hv
        unfold resetFrame frameSize
        split at hv
        · rename_i h0; rw [if_pos h0]; exact hv
        · rename_i h0; rw [if_neg h0]; exact hv
      · rw [if_neg hn] at he; cases he
        exact ⟨.nothing _ _, .inl rfl, by rintro ⟨⟩, fun _ => rfl, rfl, rfl, rfl, rfl, by rintro ⟨⟩, Nat.le_add_left _ _⟩
  | resetReliable tx err final rel prio acked =>
    rw [hs] at he hst
    obtain ⟨h1, h2, h3, h4, h5, h6, _⟩ := hst
    have hcm := hi.rcd.comm
    simp only at he
    by_cases hp : prio ≠ some p
    · rw [if_pos hp] at he; cases he
      exact ⟨.nothing _ _, .inl rfl, by rintro ⟨⟩, fun _ => rfl, rfl, rfl, rfl, rfl, by rintro ⟨⟩, Nat.le_add_left _ _⟩
    rw [if_neg hp] at he
    cases hv : vlens (resetValues h.s.id err final rel) with
    | error e => rw [hv] at he; cases he
    | ok n =>
      rw [hv] at he
      simp only at he
      by_cases hn : n ≤ rem
      · rw [if_pos hn] at he
        cases he
        have hn40 : n ≤ 40 := by
          have := vlens_size hv
          unfold resetValues at this
          split at this <;> simp at this <;> omega
        refine ⟨⟨n, framesSize_one ?_, by simp only; omega⟩, .inr ⟨err, rel, by rw [h3], h1, Nat.le_of_eq h5.symm, by omega⟩,
          by rintro ⟨⟩, by rintro ⟨⟩, rfl, rfl, rfl, rfl, by rintro ⟨⟩, by simp only; omega⟩
        unfold resetValues at hv
        unfold resetFrame frameSize
        split at hv
        · rename_i h0; rw [if_pos h0]; exact hv
        · rename_i h0; rw [if_neg h0]; exact hv
      · rw [if_neg hn] at he; cases he
        exact ⟨.nothing _ _, .inl rfl, by rintro ⟨⟩, fun _ => rfl, rfl, rfl, rfl, rfl, by rintro ⟨⟩, Nat.le_add_left _ _⟩
  | ready fc =>
    rw [hs] at he; cases he
    exact ⟨.nothing _ _, .inl rfl, by rintro ⟨⟩, fun _ => rfl, rfl, rfl, rfl, rfl, fun _ => rfl, Nat.le_add_left _ _⟩
  | send fc tx c =>
    rw [hs] at he; cases he
    exact ⟨.nothing _ _, .inl rfl, by rintro ⟨⟩, fun _ => rfl, rfl, rfl, rfl, rfl, fun _ => rfl, Nat.le_add_left _ _⟩
  | dataSent tx a b c =>
    rw [hs] at he; cases he
    exact ⟨.nothing _ _, .inl rfl, by rintro ⟨⟩, fun _ => rfl, rfl, rfl, rfl, rfl, fun _ => rfl, Nat.le_add_left _ _⟩
  | dataRecvd a b =>
    rw [hs] at he; cases he
    exact ⟨.nothing _ _, .inl rfl, by rintro ⟨⟩, fun _ => rfl, rfl, rfl, rfl, rfl, fun _ => rfl, Nat.le_add_left _ _⟩
  | resetRecvd a b =>
    rw [hs] at he; cases he
    exact ⟨.nothing _ _, .inl rfl, by rintro ⟨⟩, fun _ => rfl, rfl, rfl, rfl, rfl, fun _ => rfl, Nat.le_add_left _ _⟩

theorem writeFc_spec {fc : SFc} {id rem : Nat} {fc' : SFc} {w : Wrote} (he : writeFc fc id rem = .ok (fc', w)) :
    Fits id rem w ∧ (w.frames = [] ∨ ∃ l, w.frames = [.blocked l]) ∧ rem ≤ 24 + w.rem ∧ (fc.isBlocked = false → w.frames = []) ∧
    (w.frames = [] → 24 ≤ rem → fc.isBlocked = false) ∧ (w.frames = [] → fc' = fc) := by
  unfold writeFc at he
  unfold SFc.isBlocked
  cases hb : fc.blockedNeeded with
  | none => rw [hb] at he; cases he; exact ⟨.nothing _ _, .inl rfl, Nat.le_add_left _ _, fun _ => rfl, fun _ _ => rfl, fun _ => rfl⟩
  | some l =>
    rw [hb] at he
    simp only at he
    cases hv : vlens [0x15, id, l] with
    | error e => rw [hv] at he; cases he
    | ok n =>
      rw [hv] at he
      simp only at he
      have h24 : n ≤ 24 := by have := vlens_size hv; simpa using this
      by_cases hn : n ≤ rem
      · rw [if_pos hn] at he; cases he
        exact ⟨⟨n, framesSize_one (by simpa [frameSize] using hv), by simp only; omega⟩, .inr ⟨l, rfl⟩, by simp only; omega,
          by rintro ⟨⟩, by rintro ⟨⟩, by rintro ⟨⟩⟩
      · rw [if_neg hn] at he; cases he
        exact ⟨.nothing _ _, .inl rfl, Nat.le_add_left _ _, by rintro ⟨⟩, fun _ h => by omega, fun _ => rfl⟩

theorem writeBlocked_spec {s : Stream} {p : Prio} {rem : Nat} {s' : Stream} {w : Wrote}
    (he : s.writeBlocked p rem = .ok (s', w)) :
    Fits s.id rem w ∧ (w.frames = [] ∨ ∃ l, w.frames = [.blocked l]) ∧ rem ≤ 24 + w.rem ∧
    s'.prio = s.prio ∧ s'.effPrio = s.effPrio ∧ s'.retransOff = s.retransOff ∧ s'.id = s.id ∧
    (∀ q, s'.mode q = s.mode q) ∧ (∀ b, s'.hasNext b = s.hasNext b) ∧ s'.state.tx? = s.state.tx? ∧
    (isResetState s.state = true → s' = s) ∧
    ((∀ fc, s.state = .ready fc → p = s.prio → fc.isBlocked = false) →
      (∀ fc tx c, s.state = .send fc tx c → p = s.prio → fc.isBlocked = false) → w.frames = []) ∧
    (w.frames = [] → 24 ≤ rem → (∀ fc, s.state = .ready fc → p = s.prio → fc.isBlocked = false) ∧
      (∀ fc tx c, s.state = .send fc tx c → p = s.prio → fc.isBlocked = false)) := by
  unfold Stream.writeBlocked at he
  by_cases hp : p = s.prio
  · rw [if_pos hp] at he
    cases hs : s.state with
    | ready fc =>
      rw [hs] at he
      simp only at he
      cases hw : writeFc fc s.id rem with
      | error e => rw [hw] at he; cases he
      | ok r =>
        obtain ⟨fc', w'⟩ := r
        rw [hw] at he
        cases he
        obtain ⟨a, b, c, d, e, f⟩ := writeFc_spec hw
        refine ⟨a, b, c, rfl, rfl, rfl, rfl, fun _ => rfl, fun b => ?_, rfl, by rintro ⟨⟩, fun h1 _ => d (h1 fc rfl hp), fun h0 hr => ⟨?_, by rintro _ _ _ ⟨⟩⟩⟩
        · unfold Stream.hasNext; rw [hs]
        · rintro _ ⟨⟩ _; exact e h0 hr
    | send fc tx c =>
      rw [hs] at he
      simp only at he
      cases hw : writeFc fc s.id rem with
      | error e => rw [hw] at he; cases he
      | ok r =>
        obtain ⟨fc', w'⟩ := r
        rw [hw] at he
        cases he
        obtain ⟨a, b, c', d, e, f⟩ := writeFc_spec hw
        refine ⟨a, b, c', rfl, rfl, rfl, rfl, fun _ => rfl, fun b => ?_, rfl, by rintro ⟨⟩, fun _ h1 => d (h1 fc tx c rfl hp), fun h0 hr => ⟨by rintro _ ⟨⟩, ?_⟩⟩
        · unfold Stream.hasNext; rw [hs]
        · rintro _ _ _ ⟨⟩ _; exact e h0 hr
    | dataSent tx a b c =>
      rw [hs] at he; cases he
      exact ⟨.nothing _ _, .inl rfl, Nat.le_add_left _ _, rfl, rfl, rfl, rfl, fun _ => rfl, fun _ => rfl, by rw [hs], fun _ => rfl, fun _ _ => rfl,
        fun _ _ => ⟨by rintro _ ⟨⟩, by rintro _ _ _ ⟨⟩⟩⟩
    | dataRecvd a b =>
      rw [hs] at he; cases he
      exact ⟨.nothing _ _, .inl rfl, Nat.le_add_left _ _, rfl, rfl, rfl, rfl, fun _ => rfl, fun _ => rfl, by rw [hs], fun _ => rfl, fun _ _ => rfl,
        fun _ _ => ⟨by rintro _ ⟨⟩, by rintro _ _ _ ⟨⟩⟩⟩
    | resetSent a b c d e f =>
      rw [hs] at he; cases he
      exact ⟨.nothing _ _, .inl rfl, Nat.le_add_left _ _, rfl, rfl, rfl, rfl, fun _ => rfl, fun _ => rfl, by rw [hs], fun _ => rfl, fun _ _ => rfl,
        fun _ _ => ⟨by rintro _ ⟨⟩, by rintro _ _ _ ⟨⟩⟩⟩
    | resetReliable a b c d e f =>
      rw [hs] at he; cases he
      exact ⟨.nothing _ _, .inl rfl, Nat.le_add_left _ _, rfl, rfl, rfl, rfl, fun _ => rfl, fun _ => rfl, by rw [hs], fun _ => rfl, fun _ _ => rfl,
        fun _ _ => ⟨by rintro _ ⟨⟩, by rintro _ _ _ ⟨⟩⟩⟩
    | resetRecvd a b =>
      rw [hs] at he; cases he
      exact ⟨.nothing _ _, .inl rfl, Nat.le_add_left _ _, rfl, rfl, rfl, rfl, fun _ => rfl, fun _ => rfl, by rw [hs], fun _ => rfl, fun _ _ => rfl,
        fun _ _ => ⟨by rintro _ ⟨⟩, by rintro _ _ _ ⟨⟩⟩⟩
  · rw [if_neg hp] at he; cases he
    exact ⟨.nothing _ _, .inl rfl, Nat.le_add_left _ _, rfl, rfl, rfl, rfl, fun _ => rfl, fun _ => rfl, rfl, fun _ => rfl, fun _ _ => rfl,
      fun _ _ => ⟨fun _ _ h => absurd h hp, fun _ _ _ _ h => absurd h hp⟩⟩

end Neqo.Send
