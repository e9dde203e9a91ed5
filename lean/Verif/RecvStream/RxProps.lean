import Verif.RecvStream.RxSpec
import Verif.RecvStream.RxInv

/-!
# C05, C06, C07: reassembly

Theorems over every history `ops` of frames and reads, from the empty buffer.
-/
namespace Neqo.Recv
open Neqo.Codec (Bytes)

/-- Ties a state to the history that led to it. -/
private def Good (R : Rcv) (st : St) : Prop :=
  Inv R st.1 ∧ Ok R 0 st.2 ∧ st.2.length = st.1.retired

private theorem step_good {R} {st st' : St} {op : Op} (h : Good R st) (hs : step st op = .ok st') :
    Good (fun i b => R i b ∨ Carried [op] i b) st' := by
  obtain ⟨hi, hok, hl⟩ := h
  cases op with
  | frame off data =>
    simp only [step] at hs
    split at hs
    · rename_i s' hf
      cases hs
      have hinv := inboundFrame_inv hi hf
      have hRR : R.add off data = (fun i b => R i b ∨ Carried [Op.frame off data] i b) := by
        funext i b
        simp only [Rcv.add, Carried, List.mem_singleton, Op.frame.injEq]
        apply propext
        constructor
        · rintro (h | h)
          · exact .inl h
          · exact .inr ⟨off, data, ⟨rfl, rfl⟩, h⟩
        · rintro (h | ⟨o, d, ⟨rfl, rfl⟩, h⟩)
          · exact .inl h
          · exact .inr h
      rw [hRR] at hinv
      refine ⟨hinv, hok.mono (fun i b hb => .inl hb), ?_⟩
      -- `retired` is unchanged by a frame
      rw [hl]
      have hret : ∀ (s s' : Rx) k v, s.insertRange k v = .ok s' → s'.retired = s.retired := by
        intro s s' k v h; have := insertRange_ok h; rw [this]
      have hadd : ∀ (s s' : Rx) a b c d, s.addRange a b c d = .ok s' → s'.retired = s.retired := by
        intro s s' a b c d h
        unfold Rx.addRange at h
        simp only at h
        split at h
        · cases h; rfl
        · split at h
          · cases h; rfl
          · exact (hret _ _ _ _ h).trans rfl
      unfold Rx.inboundFrame at hf
      simp only at hf
      repeat' split at hf
      all_goals first
        | (cases hf; rfl)
        | exact (hret _ _ _ _ hf).symm
        | exact (hadd _ _ _ _ _ _ hf).symm
    · cases hs
  | read n =>
    simp only [step] at hs
    obtain ⟨s', out, heq, hinv, hok', hr, _, _⟩ := read_inv hi n
    rw [heq] at hs
    cases hs
    have hRR : R = (fun i b => R i b ∨ Carried [Op.read n] i b) := by
      funext i b; simp [Carried]
    rw [← hRR]
    refine ⟨hinv, ?_, by rw [List.length_append, hl]; exact hr.symm⟩
    apply hok.append
    rw [hl, Nat.zero_add]; exact hok'

private theorem carried_cons {op ops i b} :
    Carried (op :: ops) i b ↔ Carried [op] i b ∨ Carried ops i b := by
  unfold Carried
  constructor
  · rintro ⟨o, d, hm, h⟩
    rcases List.mem_cons.mp hm with rfl | hm
    · exact .inl ⟨o, d, by simp, h⟩
    · exact .inr ⟨o, d, hm, h⟩
  · rintro (⟨o, d, hm, h⟩ | ⟨o, d, hm, h⟩)
    · exact ⟨o, d, by simp at hm; simp [hm], h⟩
    · exact ⟨o, d, by simp [hm], h⟩

private theorem run_good {R} {st st' : St} {ops : List Op} (h : Good R st)
    (hs : run st ops = .ok st') : Good (fun i b => R i b ∨ Carried ops i b) st' := by
  induction ops generalizing R st with
  | nil =>
    cases hs
    have : R = (fun i b => R i b ∨ Carried [] i b) := by funext i b; simp [Carried]
    rw [← this]; exact h
  | cons op ops ih =>
    simp only [run] at hs
    split at hs
    · rename_i st1 h1
      have := ih (step_good h h1) hs
      have hRR : (fun i b => (R i b ∨ Carried [op] i b) ∨ Carried ops i b) =
          (fun i b => R i b ∨ Carried (op :: ops) i b) := by
        funext i b; rw [carried_cons (op := op) (ops := ops), or_assoc]
      rw [hRR] at this; exact this
    · cases hs

private theorem good_init : Good (fun _ _ => False) (({}, []) : St) :=
  ⟨inv_init, by intro i b h; simp at h, rfl⟩

private theorem run_init {s out} {ops : List Op} (hs : run ({}, []) ops = .ok (s, out)) :
    Good (Carried ops) (s, out) := by
  have := run_good good_init hs
  have hRR : (fun i b => False ∨ Carried ops i b) = Carried ops := by
    funext i b; simp
  rw [hRR] at this; exact this

/-! ## C05: the right bytes -/

/-- Whatever the peer sends, a byte delivered at position `i` was carried at offset
`i` by some frame that arrived. -/
theorem C05_delivered_bytes_were_carried {ops : List Op} {s : Rx} {out : Bytes}
    (hs : run ({}, []) ops = .ok (s, out)) (i : Nat) (hi : i < out.length) :
    Carried ops i out[i] := by
  have := (run_init hs).2.1 i out[i] (List.getElem?_eq_getElem hi)
  rwa [Nat.zero_add] at this

/-- If every frame carries bytes of a stream `f`, the bytes delivered are exactly the
first `out.length` bytes of `f`: in order, without gap, repetition or corruption. -/
theorem C05_delivery_is_stream_prefix {f : Nat → UInt8} {ops : List Op} {s : Rx} {out : Bytes}
    (hf : Consistent f ops) (hs : run ({}, []) ops = .ok (s, out)) :
    out = (List.range out.length).map f := by
  apply List.ext_getElem
  · simp
  · intro i h1 h2
    rw [List.getElem_map, List.getElem_range]
    exact hf _ _ (C05_delivered_bytes_were_carried hs i h1)

/-- No history makes the buffer panic; the only failure is the gap limit. -/
theorem C05_only_gap_limit_fails {ops : List Op} {e : Err} (he : run ({}, []) ops = .error e) :
    e = .protocolViolation := by
  suffices ∀ R (st : St), Good R st → run st ops = .error e → e = .protocolViolation from
    this _ _ good_init he
  clear he
  induction ops with
  | nil => intro R st _ h; simp [run] at h
  | cons op ops ih =>
    intro R st h
    simp only [run]
    split
    · rename_i st1 h1
      exact ih _ st1 (step_good h h1)
    · rename_i e he
      intro hc
      injection hc with hc
      subst hc
      cases op with
      | frame off data =>
        simp only [step] at he
        split at he
        · cases he
        · rename_i e' he'
          cases he
          exact inboundFrame_error he'
      | read n =>
        simp only [step] at he
        obtain ⟨s', out, heq, _⟩ := read_inv h.1 n
        rw [heq] at he; cases he

/-- An out-of-order, overlapping history that satisfies the hypotheses. -/
def demo : List Op :=
  [.frame 3 [13, 14, 15], .read 5, .frame 1 [11, 12, 13, 14], .frame 0 [10, 11], .read 4,
   .frame 2 [12, 13, 14, 15, 16], .read 9]

example : run ({}, []) demo = .ok ({ retired := 7, received := 7, end_ := 7 },
    [10, 11, 12, 13, 14, 15, 16]) := by decide +kernel
example : Consistent (fun i => UInt8.ofNat (10 + i)) demo := by
  rintro i b ⟨off, data, hm, hle, hb⟩
  simp only [demo, List.mem_cons, Op.frame.injEq, reduceCtorEq, List.not_mem_nil, or_false,
    false_or] at hm
  rcases hm with ⟨rfl, rfl⟩ | ⟨rfl, rfl⟩ | ⟨rfl, rfl⟩ | ⟨rfl, rfl⟩ <;>
  · obtain ⟨k, rfl⟩ := Nat.exists_eq_add_of_le hle
    rw [Nat.add_sub_cancel_left] at hb
    have hk := (List.getElem?_eq_some_iff.mp hb).1
    simp only [List.length_cons, List.length_nil] at hk
    match k, hk with
    | 0, _ | 1, _ | 2, _ | 3, _ | 4, _ => first | (cases hb; rfl) | (exfalso; omega)

/-! ## C06: everything that can be delivered is -/

/-- A read that returns less than asked for stops at an offset no frame has carried. -/
theorem C06_short_read_means_gap {ops : List Op} {s : Rx} {out : Bytes}
    (hs : run ({}, []) ops = .ok (s, out)) (n : Nat) :
    ∃ s' got, s.read n = .ok (s', got) ∧ got.length ≤ n ∧
      (got.length < n → ¬ Arrived ops (out.length + got.length)) := by
  obtain ⟨hi, _, hl⟩ := run_init hs
  obtain ⟨s', got, heq, _, _, hr, hle, hstop⟩ := read_inv hi n
  simp only at hl
  exact ⟨s', got, heq, hle, fun hlt => by rw [hl, ← hr]; exact hstop hlt⟩

/-- The number of bytes reported ready is exactly the length of the contiguous run of
arrived bytes after what has been delivered. -/
theorem C06_bytes_ready_exact {ops : List Op} {s : Rx} {out : Bytes}
    (hs : run ({}, []) ops = .ok (s, out)) :
    (∀ i, i < out.length + s.bytesReady → Arrived ops i) ∧
    ¬ Arrived ops (out.length + s.bytesReady) := by
  obtain ⟨hi, _, hl⟩ := run_init hs
  simp only at hl hi
  have := bytesReady_spec hi
  rw [hl]
  refine ⟨fun i h => ?_, this.2⟩
  by_cases h1 : i < s.retired
  · exact hi.past i h1
  · exact this.1 i (by omega) h

/-- Data is reported ready exactly when the next byte has arrived. -/
theorem C06_data_ready_exact {ops : List Op} {s : Rx} {out : Bytes}
    (hs : run ({}, []) ops = .ok (s, out)) :
    s.dataReady = true ↔ Arrived ops out.length := by
  obtain ⟨hi, _, hl⟩ := run_init hs
  simp only at hl hi
  rw [hl]; exact dataReady_spec hi

/-- Reading to the end delivers all of the contiguous run. -/
theorem C06_read_to_end_drains {ops : List Op} {s : Rx} {out : Bytes}
    (hs : run ({}, []) ops = .ok (s, out)) :
    ∃ s' got, s.readToEnd = .ok (s', got) ∧ got.length = s.bytesReady ∧
      ¬ Arrived ops (out.length + got.length) := by
  obtain ⟨s', got, heq, hle, hlt⟩ := C06_short_read_means_gap hs s.bytesReady
  have hb := C06_bytes_ready_exact hs
  have hg : got.length = s.bytesReady := by
    by_contra hne
    have h1 : got.length < s.bytesReady := by omega
    exact hlt h1 (hb.1 _ (by omega))
  exact ⟨s', got, heq, hg, by rw [hg]; exact hb.2⟩

example : ∃ s, run ({}, []) (demo.take 4) = .ok (s, []) ∧ s.bytesReady = 6 ∧ s.dataReady = true := by
  refine ⟨_, rfl, ?_, ?_⟩ <;> decide +kernel

/-! ## C07: the number of buffered ranges is bounded -/

private theorem scanNext_length (ne : Nat) (m : SMap Bytes) : ∀ (len : Nat),
    (scanNext ne len m).1.length ≤ m.length := by
  induction m with
  | nil => intro len; simp [scanNext]
  | cons e m ih =>
    intro len; obtain ⟨a, d⟩ := e
    simp only [scanNext]
    split
    · simp
    · split
      · simp
      · have := ih len; simp only [List.length_cons]; omega

private theorem below_atOrAfter_length (m : SMap Bytes) (n : Nat) :
    (m.below n).length + (m.atOrAfter n).length = m.length := by
  unfold SMap.below SMap.atOrAfter
  induction m with
  | nil => rfl
  | cons e m ih =>
    simp only [List.filter_cons]
    by_cases hc : e.1 < n
    · have h2 : ¬ n ≤ e.1 := by omega
      simp [hc, h2]; omega
    · have h2 : n ≤ e.1 := by omega
      simp [hc, h2]; omega

/-- Right after a frame is accepted in a way that adds a range, the count is within the
limit for the current span. -/
theorem C07_limit_checked_on_insert {s s' : Rx} {start : Nat} {data : Bytes}
    (hs : s.inboundFrame start data = .ok s') :
    s'.ranges.length ≤ s.ranges.length ∨
      s'.ranges.length ≤ 4096 + (s'.end_ - s'.retired) / 4096 := by
  have hins : ∀ (s s' : Rx) k v, s.insertRange k v = .ok s' →
      s'.ranges.length ≤ 4096 + (s'.end_ - s'.retired) / 4096 := by
    intro s s' k v h
    unfold Rx.insertRange Rx.checkGapLimit maxGaps rangeTarget at h
    simp only at h
    split at h
    · cases h
    · cases h; simp only; omega
  have hadd : ∀ (s s' : Rx) a b c d, s.addRange a b c d = .ok s' →
      s'.ranges.length ≤ s.ranges.length ∨
      s'.ranges.length ≤ 4096 + (s'.end_ - s'.retired) / 4096 := by
    intro s s' a b c d h
    unfold Rx.addRange at h
    simp only at h
    have h1 := scanNext_length b (s.ranges.atOrAfter a) c.length
    have h2 := below_atOrAfter_length s.ranges a
    split at h
    · cases h; left; simp only [List.length_append]; omega
    · split at h
      · cases h
        left
        simp only [SMap.modify, List.length_map]
        split
        · refine Nat.le_trans (List.length_filter_le _ _) ?_
          simp only [List.length_append]; omega
        · simp only [List.length_append]; omega
      · exact .inr (hins _ _ _ _ h)
  unfold Rx.inboundFrame at hs
  simp only at hs
  repeat' split at hs
  all_goals first
    | (cases hs; exact .inl (Nat.le_refl _))
    | exact .inr (hins _ _ _ _ hs)
    | exact hadd _ _ _ _ _ _ hs
    | skip
  all_goals
    cases hs
    rename_i hlast _
    left
    have := getLast?_split hlast
    have h2 := congrArg List.length this
    simp only [List.length_append, List.length_cons, List.length_nil] at h2 ⊢
    omega

/-- With a receive window of `w` bytes, no history, however it interleaves frames and
reads, makes the buffer hold more than `4096 + w / 4096` ranges. -/
theorem C07_ranges_bounded_by_window {w : Nat} {ops : List Op} {s : Rx} {out : Bytes}
    (hw : Windowed w ({}, []) ops) (hs : run ({}, []) ops = .ok (s, out)) :
    s.ranges.length ≤ 4096 + w / 4096 := by
  suffices ∀ R (st : St), Good R st → Windowed w st ops →
      st.1.end_ ≤ st.1.retired + w → st.1.ranges.length ≤ 4096 + w / 4096 →
      run st ops = .ok (s, out) → s.ranges.length ≤ 4096 + w / 4096 from
    this _ _ good_init hw (by simp) (by simp) hs
  clear hs hw
  induction ops with
  | nil => intro R st _ _ _ hl hs; cases hs; exact hl
  | cons op ops ih =>
    intro R st hg hw hend hl hs
    simp only [run] at hs
    split at hs
    · rename_i st1 h1
      have hg1 := step_good hg h1
      have hw1 := hw.2 st1 h1
      have hbound : st1.1.end_ ≤ st1.1.retired + w := by
        rcases hg1.1.endEq with ⟨_, h⟩ | ⟨e, he, hee⟩
        · omega
        · -- the last covered byte arrived either earlier or in this frame
          have hlive := (hg1.1.live e he)
          have hpos : 0 < e.2.length := List.length_pos_iff.mpr hlive.1
          simp only [rend] at hee hlive
          have hcov := (hg1.1.cover (st1.1.end_ - 1) (by omega)).mpr ⟨e, he, by omega, by simp only [rend]; omega⟩
          have hmono : st.1.retired ≤ st1.1.retired := by
            have a := hg.2.2; have b := hg1.2.2
            have : st.2.length ≤ st1.2.length := by
              cases op with
              | frame off data =>
                simp only [step] at h1
                split at h1
                · cases h1; exact Nat.le_refl _
                · cases h1
              | read n =>
                simp only [step] at h1
                split at h1
                · cases h1; simp
                · cases h1
            omega
          obtain ⟨b, hb | hb⟩ := hcov
          · by_cases hlt : st1.1.end_ - 1 < st.1.retired
            · omega
            · obtain ⟨e', he', h2, h3⟩ := (hg.1.cover (st1.1.end_ - 1) (by omega)).mp ⟨b, hb⟩
              have := hg.1.endUp e' he'
              omega
          · obtain ⟨o, d, hm, hle, hd⟩ := hb
            have hm := List.mem_singleton.mp hm
            have := hw.1 o d hm.symm
            have hd' := (List.getElem?_eq_some_iff.mp hd).1
            have := hg.2.2
            omega
      refine ih _ st1 hg1 hw1 hbound ?_ hs
      cases op with
      | frame off data =>
        simp only [step] at h1
        split at h1
        · rename_i s1 hf
          cases h1
          rcases C07_limit_checked_on_insert hf with h | h
          · simp only; omega
          · simp only at hbound ⊢
            have : (s1.end_ - s1.retired) / 4096 ≤ w / 4096 :=
              Nat.div_le_div_right (by omega)
            omega
        · cases h1
      | read n =>
        simp only [step] at h1
        split at h1
        · rename_i s1 o1 hr
          cases h1
          simp only
          have hkeep : ∀ (m : SMap Bytes) a b o r k, readLoop m a b = .ok (o, r, some k) →
              k.length ≤ m.length := by
            intro m
            induction m with
            | nil => intro a b o r k h; simp [readLoop] at h
            | cons e m ih =>
              intro a b o r k h
              obtain ⟨a0, d0⟩ := e
              simp only [readLoop] at h
              repeat' split at h
              all_goals first
                | (cases h; exact Nat.le_refl _)
                | (cases h; done)
                | skip
              rename_i hrec
              cases h
              have := ih _ _ _ _ _ hrec
              simp only [List.length_cons]; omega
          unfold Rx.read at hr
          split at hr
          · cases hr
          · rename_i hk
            cases hr
            have := hkeep _ _ _ _ _ _ hk
            simp only; omega
          · cases hr; simp
        · cases h1
    · cases hs

/-- The limit is not spurious: below 4096 buffered ranges every frame is accepted. -/
theorem C07_accepts_below_limit {s : Rx} (hs : s.ranges.length < 4096) (start : Nat) (data : Bytes) :
    ∃ s', s.inboundFrame start data = .ok s' := by
  have hinl : ∀ (m : SMap Bytes) k v, (m.insert k v).length ≤ m.length + 1 := by
    intro m k v
    unfold SMap.insert
    have h1 : ∀ (m : SMap Bytes), (m.below k).length + (m.above k).length ≤ m.length := by
      intro m
      induction m with
      | nil => simp [SMap.below, SMap.above]
      | cons e m ih =>
        unfold SMap.below SMap.above at *
        simp only [List.filter_cons]
        by_cases hc : e.1 < k
        · have h2 : ¬ k < e.1 := by omega
          simp [hc, h2]; omega
        · by_cases h2 : k < e.1
          · simp [hc, h2]; omega
          · simp [hc, h2]; omega
    have := h1 m
    simp only [List.length_append, List.length_cons]; omega
  have hins : ∀ (s : Rx) k v, s.ranges.length < 4096 → ∃ s', s.insertRange k v = .ok s' := by
    intro s k v h
    have := hinl s.ranges k v
    unfold Rx.insertRange Rx.checkGapLimit maxGaps rangeTarget
    simp only
    rw [if_neg (by omega)]
    exact ⟨_, rfl⟩
  have hadd : ∀ (s : Rx) a b c d, s.ranges.length < 4096 → ∃ s', s.addRange a b c d = .ok s' := by
    intro s a b c d h
    unfold Rx.addRange
    simp only
    split
    · exact ⟨_, rfl⟩
    · split
      · exact ⟨_, rfl⟩
      · apply hins
        simp only [List.length_append]
        have h1 := scanNext_length b (s.ranges.atOrAfter a) c.length
        have h2 := below_atOrAfter_length s.ranges a
        omega
  unfold Rx.inboundFrame
  simp only
  repeat' split
  all_goals first
    | exact ⟨_, rfl⟩
    | exact hins _ _ _ hs
    | exact hadd _ _ _ _ _ hs

/-- The limit is enforced: one range more than allowed is refused. -/
example : Rx.checkGapLimit
    { ranges := (List.range 4097).map (fun i => (2 * i, [0])), end_ := 4000 } =
    .error .protocolViolation := by decide +kernel
example : Windowed 10 ({}, []) [Op.frame 3 [1, 2], .frame 0 [9], .read 4] := by
  simp [Windowed]

end Neqo.Recv
