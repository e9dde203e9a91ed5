import Verif.SendStream.Inv

/-! # Every operation keeps the send-stream invariant -/
namespace Neqo.Send
open Neqo.Codec (Bytes varintLen maxVarint)
open Neqo.Flow (SFc)

theorem StOk_writable {st : State} {evs : List Ev} {r : Rec} (h : StOk st evs r) : StOk st (evs ++ [.writable]) r := by
  have hc : Ev.complete ∉ evs → Ev.complete ∉ evs ++ [.writable] := by
    intro h1 h2
    simp at h2; exact h1 h2
  cases st with
  | ready fc =>
    obtain ⟨h1, h2, h3, h4, h5, h6, h7, h8⟩ := h
    exact ⟨h1, h2, h3, h4, h5, h6, hc h7, h8⟩
  | send fc tx c =>
    obtain ⟨h1, h2, h3, h4, h5, h6, h7, h8⟩ := h
    exact ⟨h1, h2, h3, h4, hc h5, h6, h7, h8⟩
  | dataSent tx a b c =>
    obtain ⟨h1, h2, h3, h4, h5, h6⟩ := h
    exact ⟨h1, h2, h3, h4, hc h5, h6⟩
  | dataRecvd rt w =>
    obtain ⟨h1, h2, h3, h4, h5, h6⟩ := h
    exact ⟨h1, h2, h3, h4, by rw [List.count_append]; simpa using h5, h6⟩
  | resetSent err final rel prio fr fw => exact ⟨h.1, hc h.2.1, h.2.2⟩
  | resetReliable tx err final rel prio acked => exact ⟨h.1, hc h.2.1, h.2.2⟩
  | resetRecvd fr fw => exact ⟨h.1, hc h.2.1, h.2.2⟩

theorem avail_ok {h : Hist} (hi : HInv h) (conn : SFc) : ∃ a, h.s.avail conn = .ok a ∧
    (∀ fc tx c, h.s.state = .send fc tx c → a = min (min fc.available conn.available) (txMax - tx.buf.length)) ∧
    (∀ fc, h.s.state = .ready fc → a = min (min fc.available conn.available) txMax) ∧
    ((∀ fc tx c, h.s.state ≠ .send fc tx c) → (∀ fc, h.s.state ≠ .ready fc) → a = 0) := by
  unfold Stream.avail
  cases hs : h.s.state with
  | ready fc =>
    exact ⟨_, rfl, by rintro _ _ _ ⟨⟩, by rintro _ ⟨⟩; rfl, fun _ h2 => absurd rfl (h2 fc)⟩
  | send fc tx c =>
    have hm := hi.st.marks (tx := tx) (by rw [hs]; rfl)
    simp only [hm.ok.avail]
    exact ⟨_, rfl, by rintro _ _ _ ⟨⟩; rfl, by rintro _ ⟨⟩, fun h1 => absurd rfl (h1 fc tx c)⟩
  | _ => exact ⟨_, rfl, by rintro _ _ _ ⟨⟩, by rintro _ ⟨⟩, fun _ _ => rfl⟩

theorem maybeWritable_ok {h : Hist} (hi : HInv h) (conn : SFc) (p c : Nat) :
    ∃ s', h.s.maybeWritable conn p c = .ok s' ∧ HInv ⟨s', h.r⟩ ∧ s'.state = h.s.state ∧
      (s'.events = h.s.events ∨ s'.events = h.s.events ++ [.writable]) := by
  obtain ⟨a, ha, _⟩ := avail_ok hi conn
  unfold Stream.maybeWritable
  rw [ha]
  simp only
  split
  · exact ⟨_, rfl, hi, rfl, .inl rfl⟩
  · exact ⟨_, rfl, ⟨StOk_writable hi.st, hi.rcd, hi.id, hi.sentGe, hi.sentLe⟩, rfl, .inr rfl⟩

/-! ## Writing -/

theorem RecOk_write {r : Rec} (h : RecOk r) (hc : r.closed = false) (hr : r.resetCalled = false) (x : Bytes)
    (hl : r.written.length + x.length ≤ r.limit) : RecOk { r with written := r.written ++ x } := by
  refine ⟨fun t ht => ?_, fun t ht hf => ?_, h.live, h.acks, h.toks, fun off d f fl hf => ?_, fun e f hf => ?_,
    fun e f y hf => ?_, ?_, ?_, h.lim62⟩
  · simp only [List.length_append]
    have := h.le t ht; omega
  · have := (h.fin t ht hf).1; rw [hc] at this; cases this
  · simp only
    have h1 := h.data off d f fl hf
    have h2 : (⟨off, d.length, f⟩ : Tok) ∈ r.toks := by
      rw [h.toks]
      exact List.mem_filterMap.mpr ⟨_, hf, rfl⟩
    have h3 := h.le _ h2
    simp only at h3
    rcases Nat.eq_zero_or_pos d.length with h0 | h0
    · rw [h0, List.take_zero]; exact List.length_eq_zero_iff.mp h0
    · rw [List.drop_append_of_le_length (by omega), List.take_append_of_le_length (by rw [List.length_drop]; omega)]
      exact h1
  · have := (h.reset e f hf).1; rw [hr] at this; cases this
  · have := (h.resetAt e f y hf).1; rw [hr] at this; cases this
  · simp only [List.length_append]; have := h.comm; omega
  · simp only [List.length_append]; exact hl

theorem accept_ok {h : Hist} (hi : HInv h) (conn : SFc) (fc : SFc) (tx : Tx) (c : Nat) (hs : h.s.state = .send fc tx c)
    (d : Bytes) (h0 : 0 < d.length) (h1 : d.length ≤ fc.available) (h2 : d.length ≤ conn.available)
    (h3 : d.length ≤ txMax - tx.buf.length) :
    ∃ s', h.s.accept conn d = .ok (s', { conn with used := conn.used + d.length }, .wrote d.length) ∧
      HInv ⟨s', { h.r with written := h.r.written ++ d }⟩ := by
  have hst := hi.st
  rw [hs] at hst
  obtain ⟨g1, g2, g3, g4, g5, g6, g7, g8⟩ := hst
  obtain ⟨tx', e1, e2, e3⟩ := g7.ok.send d
  have hmin : min (txMax - tx.buf.length) d.length = d.length := by omega
  rw [hmin] at e1 e3
  rw [List.take_length] at e3
  unfold SFc.available at h1 h2
  unfold Stream.accept
  rw [hs]
  simp only [e1]
  unfold SFc.consume
  rw [if_pos (by omega), if_pos (by omega)]
  simp only
  refine ⟨_, rfl, ?_⟩
  have hlim := g6.limit
  have hused := g6.used
  have hr := RecOk_write hi.rcd g1 g2 d (by omega)
  refine ⟨⟨g1, g2, g3, g4, g5, ⟨?_, hlim, g6.blocked⟩, ⟨e3, fun i => ?_, fun i hx => ?_⟩, g8⟩, hr, hi.id, hi.sentGe, ?_⟩
  · simp only [List.length_append]; omega
  · rw [e2]; exact g7.acked i
  · rw [e2] at hx; exact g7.sent i hx
  · simp only [List.length_append]
    have := hi.sentLe; omega

theorem write_nil {h : Hist} (hi : HInv h) (s' : Stream) (hi' : HInv ⟨s', h.r⟩) (d : Bytes) :
    HInv ⟨s', { h.r with written := h.r.written ++ d.take 0 }⟩ := by
  simpa using hi'

theorem toSend_ok {h : Hist} (hi : HInv h) : HInv ⟨h.s.toSend, h.r⟩ := by
  have hst := hi.st
  unfold Stream.toSend
  cases hs : h.s.state with
  | ready fc =>
    rw [hs] at hst
    obtain ⟨h1, h2, h3, h4, h5, h6, h7, h8⟩ := hst
    refine ⟨⟨h3, h4, h5, h6, h7, h8, ⟨?_, fun i => ?_, fun i hx => ?_⟩, ?_⟩, hi.rcd, hi.id, hi.sentGe, hi.sentLe⟩
    · rw [h1]; exact txok_new
    · refine iff_of_false ?_ ?_
      · intro hx
        have := txok_new.acked i hx
        exact absurd this (Nat.not_lt_zero _)
      · rintro ⟨k, _, t, ht, _⟩
        rw [h2] at ht; cases ht
    · have := txok_new.sent i hx
      exact absurd this (Nat.not_lt_zero _)
    · have := hi.rcd.comm
      rw [h1] at this
      exact (Nat.le_zero.mp this).symm
  | _ => exact hi

theorem sendInternal_ok {h : Hist} (hi : HInv h) (conn : SFc) (data : Bytes) (atomic : Bool) :
    ∃ s' conn' res, h.s.sendInternal conn data atomic = .ok (s', conn', res) ∧
      conn'.limit = conn.limit ∧
      (∀ n, res = .wrote n → n ≤ data.length ∧ HInv ⟨s', { h.r with written := h.r.written ++ data.take n }⟩ ∧
        conn'.used = conn.used + n ∧ (0 < n → conn.used + n ≤ conn.limit)) ∧
      (∀ e, res = .err e → HInv ⟨s', h.r⟩ ∧ conn'.used = conn.used) := by
  unfold Stream.sendInternal
  by_cases h0 : data = []
  · rw [if_pos h0]
    exact ⟨_, _, _, rfl, rfl, by rintro _ ⟨⟩, fun _ _ => ⟨hi, rfl⟩⟩
  rw [if_neg h0]
  have hpos : 0 < data.length := List.length_pos_iff.mpr h0
  have hi1 := toSend_ok hi
  simp only
  cases hs : h.s.toSend.state with
  | send fc tx c =>
    simp only
    obtain ⟨a, ha, ha1, _⟩ := avail_ok hi1 conn
    simp only at ha
    rw [ha]
    simp only
    have hav := ha1 fc tx c hs
    by_cases hz : a = 0
    · rw [if_pos hz]
      exact ⟨_, _, _, rfl, rfl, by rintro n ⟨⟩; exact ⟨Nat.zero_le _, by simpa using hi1, rfl, by omega⟩, by rintro _ ⟨⟩⟩
    rw [if_neg hz]
    by_cases hl : a < data.length
    · rw [if_pos hl]
      cases atomic with
      | true =>
        simp only [if_true]
        have hst := blockedIfNeeded_ok (s := h.s.toSend) conn data.length hi1.st
        obtain ⟨b1, b2⟩ := blockedIfNeeded_same h.s.toSend conn data.length
        have hconn : (h.s.toSend.blockedIfNeeded conn data.length).2.limit = conn.limit ∧
            (h.s.toSend.blockedIfNeeded conn data.length).2.used = conn.used := by
          unfold Stream.blockedIfNeeded
          rw [hs]
          unfold blockedIf SFc.blocked
          repeat' split
          all_goals exact ⟨rfl, rfl⟩
        refine ⟨_, _, _, rfl, hconn.1, ?_, by rintro _ ⟨⟩⟩
        rintro n ⟨⟩
        refine ⟨Nat.zero_le _, ?_, hconn.2, by omega⟩
        simp only [List.take_zero, List.append_nil]
        refine ⟨hst, hi1.rcd, ?_, ?_, ?_⟩
        · simp only; rw [b1]; exact hi1.id
        · simp only; rw [b2]; exact hi1.sentGe
        · simp only; rw [b2]; exact hi1.sentLe
      | false =>
        simp only [Bool.false_eq_true, if_false]
        have hlen : (data.take a).length = a := by rw [List.length_take]; omega
        obtain ⟨s', e1, e2⟩ := accept_ok hi1 conn fc tx c hs (data.take a) (by omega) (by omega) (by omega) (by omega)
        simp only at e1
        rw [e1]
        refine ⟨_, _, _, rfl, rfl, ?_, by rintro _ ⟨⟩⟩
        rw [hlen]
        rintro n ⟨⟩
        refine ⟨by omega, e2, rfl, fun _ => ?_⟩
        unfold SFc.available at hav; omega
    · rw [if_neg hl]
      obtain ⟨s', e1, e2⟩ := accept_ok hi1 conn fc tx c hs data (by omega) (by omega) (by omega) (by omega)
      simp only at e1
      rw [e1]
      refine ⟨_, _, _, rfl, rfl, ?_, by rintro _ ⟨⟩⟩
      rintro n ⟨⟩
      refine ⟨by omega, by rw [List.take_length]; exact e2, rfl, fun _ => ?_⟩
      unfold SFc.available at hav; omega
  | _ => exact ⟨_, _, _, rfl, rfl, by rintro _ ⟨⟩, fun _ _ => ⟨hi1, rfl⟩⟩

/-! ## Closing, committing and resetting -/

theorem RecOk_closed {r : Rec} (h : RecOk r) (b : Bool) : RecOk { r with closed := r.closed || b } :=
  ⟨h.le, fun t ht hf => ⟨by simp only; rw [(h.fin t ht hf).1]; rfl, (h.fin t ht hf).2⟩, h.live, h.acks, h.toks,
    h.data, h.reset, h.resetAt, h.comm, h.lim, h.lim62⟩

theorem close_ok {h : Hist} (hi : HInv h) :
    HInv ⟨h.s.close, { h.r with closed := h.r.closed || !h.r.resetCalled }⟩ := by
  have hr := RecOk_closed hi.rcd (!h.r.resetCalled)
  have hst := hi.st
  have key : StOk h.s.close.state h.s.close.events { h.r with closed := h.r.closed || !h.r.resetCalled } ∧
      h.s.close.id = h.s.id ∧ h.s.close.bytesSent = h.s.bytesSent := by
    unfold Stream.close
    cases hs : h.s.state with
    | ready fc =>
      have hx := toSend_ok hi
      have hx := hx.st
      unfold Stream.toSend at hx
      rw [hs] at hx
      rw [hs] at hst
      obtain ⟨h1, h2, h3, h4, h5, h6, h7, h8⟩ := hst
      obtain ⟨_, _, _, _, _, _, h9, h10⟩ := hx
      refine ⟨⟨by simp [h4], h4, h5, h6, h7, ⟨h9.ok, h9.acked, h9.sent⟩, h10, by rintro ⟨⟩, ?_, by rintro ⟨⟨⟩, _⟩⟩, rfl, rfl⟩
      refine iff_of_false (by rintro ⟨⟩) ?_
      rintro ⟨k, _, t, ht, _⟩
      simp only at ht
      rw [h2] at ht; cases ht
    | send fc tx c =>
      rw [hs] at hst
      obtain ⟨h1, h2, h3, h4, h5, h6, h7, h8⟩ := hst
      refine ⟨⟨by simp [h2], h2, h3, h4, h5, ⟨h7.ok, h7.acked, h7.sent⟩, h8, by rintro ⟨⟩, ?_, by rintro ⟨⟨⟩, _⟩⟩, rfl, rfl⟩
      refine iff_of_false (by rintro ⟨⟩) ?_
      rintro ⟨k, _, t, ht, hf⟩
      have := (hi.rcd.fin t (List.mem_of_getElem? ht) hf).1
      rw [h1] at this; cases this
    | dataSent tx a b c =>
      rw [hs] at hst
      obtain ⟨h1, h2, h3, h4, h5, h6, h7⟩ := hst
      simp only
      refine ⟨?_, ?_, ?_⟩
      rotate_left
      · first | rfl | trivial
      · first | rfl | trivial
      rw [hs]
      exact ⟨by simp [h1], h2, h3, h4, h5, ⟨h6.ok, h6.acked, h6.sent⟩, h7⟩
    | dataRecvd rt w =>
      rw [hs] at hst
      obtain ⟨h1, h2⟩ := hst
      simp only
      refine ⟨?_, ?_, ?_⟩
      rotate_left
      · first | rfl | trivial
      · first | rfl | trivial
      rw [hs]
      exact ⟨by simp [h1], h2⟩
    | resetSent err final rel prio fr fw =>
      simp only
      refine ⟨?_, ?_, ?_⟩
      rotate_left
      · first | rfl | trivial
      · first | rfl | trivial
      rw [hs] at hst ⊢; exact hst
    | resetReliable tx err final rel prio acked =>
      simp only
      refine ⟨?_, ?_, ?_⟩
      rotate_left
      · first | rfl | trivial
      · first | rfl | trivial
      rw [hs] at hst ⊢
      obtain ⟨h1, h2, h3, h4, h5⟩ := hst
      exact ⟨h1, h2, h3, ⟨h4.ok, h4.acked, h4.sent⟩, h5⟩
    | resetRecvd fr fw =>
      simp only
      refine ⟨?_, ?_, ?_⟩
      rotate_left
      · first | rfl | trivial
      · first | rfl | trivial
      rw [hs] at hst ⊢; exact hst
  exact ⟨key.1, hr, by rw [key.2.1]; exact hi.id, by simp only [key.2.2]; exact hi.sentGe, by simp only [key.2.2]; exact hi.sentLe⟩

theorem RecOk_comm {r : Rec} (h : RecOk r) (c : Nat) (hc : c ≤ r.written.length) : RecOk { r with committed := c } :=
  ⟨h.le, h.fin, h.live, h.acks, h.toks, h.data, h.reset, h.resetAt, hc, h.lim, h.lim62⟩

theorem commit_ok {h : Hist} (hi : HInv h) :
    (h.s.commit.2 = none → HInv ⟨h.s.commit.1, { h.r with committed := h.r.written.length }⟩) ∧
    (∀ e, h.s.commit.2 = some e → HInv ⟨h.s.commit.1, h.r⟩) := by
  have hr := RecOk_comm hi.rcd h.r.written.length (Nat.le_refl _)
  have hst := hi.st
  unfold Stream.commit
  cases hs : h.s.state with
  | ready fc =>
    rw [hs] at hst
    simp only
    refine ⟨fun _ => ⟨?_, hr, hi.id, hi.sentGe, hi.sentLe⟩, by rintro _ ⟨⟩⟩
    simp only [hs]
    obtain ⟨h1, h2, h3, h4, h5, h6, h7, h8⟩ := hst
    exact ⟨h1, h2, h3, h4, h5, h6, h7, ⟨h8.used, h8.limit, h8.blocked⟩⟩
  | send fc tx c =>
    rw [hs] at hst
    simp only
    refine ⟨fun _ => ⟨?_, hr, hi.id, hi.sentGe, hi.sentLe⟩, by rintro _ ⟨⟩⟩
    obtain ⟨h1, h2, h3, h4, h5, h6, h7, h8⟩ := hst
    exact ⟨h1, h2, h3, h4, h5, ⟨h6.used, h6.limit, h6.blocked⟩, ⟨h7.ok, h7.acked, h7.sent⟩, h7.ok.used⟩
  | dataSent tx a b c =>
    rw [hs] at hst
    simp only
    refine ⟨fun _ => ⟨?_, hr, hi.id, hi.sentGe, hi.sentLe⟩, by rintro _ ⟨⟩⟩
    obtain ⟨h1, h2, h3, h4, h5, h6, h7, h8⟩ := hst
    exact ⟨h1, h2, h3, h4, h5, ⟨h6.ok, h6.acked, h6.sent⟩, h6.ok.used, h8⟩
  | dataRecvd rt w =>
    rw [hs] at hst
    simp only
    refine ⟨fun _ => ⟨?_, hr, hi.id, hi.sentGe, hi.sentLe⟩, by rintro _ ⟨⟩⟩
    simp only [hs]
    exact hst
  | resetSent err final rel prio fr fw => exact ⟨by rintro ⟨⟩, fun _ _ => hi⟩
  | resetReliable tx err final rel prio acked => exact ⟨by rintro ⟨⟩, fun _ _ => hi⟩
  | resetRecvd fr fw => exact ⟨by rintro ⟨⟩, fun _ _ => hi⟩

theorem RecOk_reset {r : Rec} (h : RecOk r) (b : Bool) : RecOk { r with resetCalled := r.resetCalled || b } :=
  ⟨h.le, h.fin, h.live, h.acks, h.toks, h.data,
    fun e f hf => ⟨by simp only; rw [(h.reset e f hf).1]; rfl, (h.reset e f hf).2⟩,
    fun e f x hf => ⟨by simp only; rw [(h.resetAt e f x hf).1]; rfl, (h.resetAt e f x hf).2⟩, h.comm, h.lim, h.lim62⟩

theorem completed_eq {s : Stream} : s.completed = true ↔ Ev.complete ∈ s.events := by
  unfold Stream.completed; simp

theorem not_completed {s : Stream} (h : Ev.complete ∉ s.events) : s.completed = false := by
  cases hc : s.completed with
  | false => rfl
  | true => exact absurd (completed_eq.mp hc) h

theorem Marks.prefix_acked {tx : Tx} {r : Rec} (h : Marks tx r) {i : Nat} (hi : i < tx.retired) : r.Acked i :=
  (h.acked i).mp (.inl hi)

theorem makeReset_ok {evs : List Ev} {r : Rec} {tx : Tx} {err : Nat} (prio : Prio) (hm : Marks tx r) (hc : Ev.complete ∉ evs)
    (he : err ≤ maxVarint) (hcomm : r.committed ≤ r.written.length) (hra : r.resetAck = false)
    (hrc : r.resetCalled = true) : StOk (makeReset err prio tx r.written.length r.committed) evs r := by
  unfold makeReset
  have hmin : min r.committed r.written.length = r.committed := by omega
  simp only [hmin]
  split
  · rename_i hx
    have hu := hm.ok.used
    refine ⟨hrc, hc, rfl, hu, Nat.le_refl _, hcomm, fun i hi => ?_, fun i hi => hm.prefix_acked hi, he, hra, by rintro ⟨⟩⟩
    rcases hx with hx | hx
    · omega
    · exact hm.prefix_acked (by omega)
  · rename_i hx
    exact ⟨hrc, hc, rfl, hm, rfl, by omega, he, hra.symm, by rintro ⟨⟩⟩

theorem reset_ok {h : Hist} (hi : HInv h) {err : Nat} (he : err ≤ maxVarint) :
    HInv ⟨h.s.reset err, { h.r with resetCalled := h.r.resetCalled || !h.s.completed }⟩ := by
  have hr := RecOk_reset hi.rcd (!h.s.completed)
  have hst := hi.st
  have hcomm := hi.rcd.comm
  have key : StOk (h.s.reset err).state (h.s.reset err).events { h.r with resetCalled := h.r.resetCalled || !h.s.completed } ∧
      (h.s.reset err).id = h.s.id ∧ (h.s.reset err).bytesSent = h.s.bytesSent := by
    unfold Stream.reset
    cases hs : h.s.state with
    | ready fc =>
      rw [hs] at hst
      obtain ⟨h1, h2, h3, h4, h5, h6, h7, h8⟩ := hst
      have hu := h8.used
      simp only
      refine ⟨⟨?_, h7, hu, ?_, ?_, Nat.zero_le _, ?_, ?_, he, h6, by rintro ⟨⟩⟩, ?_, ?_⟩
      rotate_right 2
      · first | rfl | trivial
      · first | rfl | trivial
      · simp [not_completed h7]
      · simp [h1]
      · rw [h1] at hcomm; exact hcomm
      · intro i hi; exact absurd hi (Nat.not_lt_zero _)
      · intro i hi; exact absurd hi (Nat.not_lt_zero _)
    | send fc tx c =>
      rw [hs] at hst
      obtain ⟨h1, h2, h3, h4, h5, h6, h7, h8⟩ := hst
      refine ⟨?_, ?_, ?_⟩
      rotate_left
      · first | rfl | trivial
      · first | rfl | trivial
      simp only
      rw [h6.used, h8]
      exact makeReset_ok (r := { h.r with resetCalled := h.r.resetCalled || !h.s.completed }) h.s.prio
        ⟨h7.ok, h7.acked, h7.sent⟩ h5 he hcomm h4 (by simp [not_completed h5])
    | dataSent tx a b c =>
      rw [hs] at hst
      obtain ⟨h1, h2, h3, h4, h5, h6, h7, h8⟩ := hst
      refine ⟨?_, ?_, ?_⟩
      rotate_left
      · first | rfl | trivial
      · first | rfl | trivial
      simp only
      rw [h6.ok.used, h7]
      exact makeReset_ok (r := { h.r with resetCalled := h.r.resetCalled || !h.s.completed }) h.s.prio
        ⟨h6.ok, h6.acked, h6.sent⟩ h5 he hcomm h4 (by simp [not_completed h5])
    | dataRecvd rt w =>
      rw [hs] at hst
      obtain ⟨h1, h2, h3, h4, h5, h6⟩ := hst
      simp only
      refine ⟨?_, ?_, ?_⟩
      rotate_left
      · first | rfl | trivial
      · first | rfl | trivial
      rw [hs]
      have hcm : h.s.completed = true := by
        rw [completed_eq, ← List.one_le_count_iff]
        omega
      exact ⟨h1, by simp [h2, hcm], h3, h4, h5, h6⟩
    | resetSent err final rel prio fr fw =>
      simp only
      refine ⟨?_, ?_, ?_⟩
      rotate_left
      · first | rfl | trivial
      · first | rfl | trivial
      rw [hs] at hst ⊢
      exact ⟨by simp [hst.1], hst.2⟩
    | resetReliable tx err final rel prio acked =>
      simp only
      refine ⟨?_, ?_, ?_⟩
      rotate_left
      · first | rfl | trivial
      · first | rfl | trivial
      rw [hs] at hst ⊢
      obtain ⟨h1, h2, h3, h4, h5⟩ := hst
      exact ⟨by simp [h1], h2, h3, ⟨h4.ok, h4.acked, h4.sent⟩, h5⟩
    | resetRecvd fr fw =>
      simp only
      refine ⟨?_, ?_, ?_⟩
      rotate_left
      · first | rfl | trivial
      · first | rfl | trivial
      rw [hs] at hst ⊢
      exact ⟨by simp [hst.1], hst.2⟩
  exact ⟨key.1, hr, by rw [key.2.1]; exact hi.id, by simp only [key.2.2]; exact hi.sentGe, by simp only [key.2.2]; exact hi.sentLe⟩

theorem dropCommitment_ok {h : Hist} (hi : HInv h) :
    HInv ⟨h.s.dropCommitment, { h.r with committed := 0 }⟩ ∧ h.s.dropCommitment.completed = h.s.completed := by
  have hr := RecOk_comm hi.rcd 0 (Nat.zero_le _)
  have hst := hi.st
  have hz : ∀ P : Nat → Prop, ∀ i, i < 0 → P i := fun P i h => absurd h (Nat.not_lt_zero _)
  unfold Stream.dropCommitment
  cases hs : h.s.state with
  | ready fc =>
    rw [hs] at hst
    refine ⟨⟨?_, hr, hi.id, hi.sentGe, hi.sentLe⟩, rfl⟩
    simp only [hs]
    obtain ⟨h1, h2, h3, h4, h5, h6, h7, h8⟩ := hst
    exact ⟨h1, h2, h3, h4, h5, h6, h7, ⟨h8.used, h8.limit, h8.blocked⟩⟩
  | send fc tx c =>
    rw [hs] at hst
    obtain ⟨h1, h2, h3, h4, h5, h6, h7, h8⟩ := hst
    refine ⟨⟨?_, hr, hi.id, hi.sentGe, hi.sentLe⟩, rfl⟩
    exact ⟨h1, h2, h3, h4, h5, ⟨h6.used, h6.limit, h6.blocked⟩, ⟨h7.ok, h7.acked, h7.sent⟩, rfl⟩
  | dataSent tx a b c =>
    rw [hs] at hst
    obtain ⟨h1, h2, h3, h4, h5, h6, h7, h8⟩ := hst
    refine ⟨⟨?_, hr, hi.id, hi.sentGe, hi.sentLe⟩, rfl⟩
    exact ⟨h1, h2, h3, h4, h5, ⟨h6.ok, h6.acked, h6.sent⟩, rfl, h8⟩
  | dataRecvd rt w =>
    refine ⟨⟨?_, hr, hi.id, hi.sentGe, hi.sentLe⟩, rfl⟩
    simp only [hs] at hst ⊢; exact hst
  | resetSent err final rel prio fr fw =>
    refine ⟨⟨?_, hr, hi.id, hi.sentGe, hi.sentLe⟩, rfl⟩
    simp only [hs] at hst ⊢
    obtain ⟨h1, h2, h3, h4, h5, h6⟩ := hst
    exact ⟨h1, h2, h3, h4, Nat.zero_le _, h6⟩
  | resetReliable tx err final rel prio acked =>
    rw [hs] at hst
    obtain ⟨h1, h2, h3, h4, h5, h6, h7, h8, h9⟩ := hst
    simp only
    cases acked with
    | true =>
      simp only [if_true]
      refine ⟨⟨?_, hr, hi.id, hi.sentGe, hi.sentLe⟩, rfl⟩
      exact ⟨h1, h2, h4.ok.used, hz _, fun i hi => h4.prefix_acked hi, h8.symm⟩
    | false =>
      simp only [Bool.false_eq_true, if_false]
      refine ⟨⟨?_, hr, hi.id, hi.sentGe, hi.sentLe⟩, rfl⟩
      exact ⟨h1, h2, h3, h4.ok.used, Nat.zero_le _, Nat.zero_le _, hz _, fun i hi => h4.prefix_acked hi, h7, h8.symm, h9⟩
  | resetRecvd fr fw =>
    refine ⟨⟨?_, hr, hi.id, hi.sentGe, hi.sentLe⟩, rfl⟩
    simp only [hs] at hst ⊢
    obtain ⟨h1, h2, h3, h4, h5⟩ := hst
    exact ⟨h1, h2, h3, hz _, h5⟩

/-! ## Acknowledgements and losses -/

theorem RecOk_ack {r : Rec} (h : RecOk r) {k : Nat} {t : Tok} (ht : r.toks[k]? = some t) :
    RecOk { r with acks := k :: r.acks } := by
  refine ⟨h.le, h.fin, h.live, ?_, h.toks, h.data, h.reset, h.resetAt, h.comm, h.lim, h.lim62⟩
  intro k' hk
  rcases List.mem_cons.mp hk with rfl | hk
  · exact (List.getElem?_eq_some_iff.mp ht).1
  · exact h.acks k' hk

theorem markAcked_inv {h : Hist} (hi : HInv h) (conn : SFc) {k : Nat} {t : Tok} (ht : h.r.toks[k]? = some t) :
    ∃ s', h.s.markAcked conn t.off t.len t.fin = .ok s' ∧ HInv ⟨s', { h.r with acks := k :: h.r.acks }⟩ := by
  have hr := RecOk_ack hi.rcd ht
  have hst := hi.st
  have hmem := List.mem_of_getElem? ht
  have hle := hi.rcd.le t hmem
  have hack := fun i => acked_ack ht i
  have hfack := finAcked_ack ht
  have marks : ∀ tx, Marks tx h.r → ∃ tx', tx.markAcked t.off t.len = .ok tx' ∧
      Marks tx' { h.r with acks := k :: h.r.acks } ∧ tx.ranges.acked ≤ tx'.ranges.acked := by
    intro tx hm
    obtain ⟨tx', e1, e2, e3, e4, e5⟩ := hm.ok.markAcked (off := t.off) (len := t.len) (.inr hle)
    refine ⟨tx', e1, ⟨e2, fun i => ?_, fun i hx => ?_⟩, e3⟩
    · rw [e4, hack, hm.acked]
    · exact hm.sent i ((e5 i).mp hx).1
  unfold Stream.markAcked
  cases hs : h.s.state with
  | send fc tx c =>
    rw [hs] at hst
    obtain ⟨h1, h2, h3, h4, h5, h6, h7, h8⟩ := hst
    obtain ⟨tx', e1, e2, _⟩ := marks tx h7
    simp only [h7.ok.avail, e1, e2.ok.avail]
    obtain ⟨s', g1, g2, _⟩ := maybeWritable_ok (h := ⟨{ h.s with state := .send fc tx' c }, { h.r with acks := k :: h.r.acks }⟩)
      ⟨⟨h1, h2, h3, h4, h5, ⟨h6.used, h6.limit, h6.blocked⟩, e2, h8⟩, hr, hi.id, hi.sentGe, hi.sentLe⟩ conn
      (txMax - tx.buf.length) (txMax - tx'.buf.length)
    exact ⟨s', g1, g2⟩
  | dataSent tx fs fa c =>
    rw [hs] at hst
    obtain ⟨h1, h2, h3, h4, h5, h6, h7, h8, h9, h10⟩ := hst
    obtain ⟨tx', e1, e2, _⟩ := marks tx h6
    simp only [e1]
    have hfa : (fa || t.fin) = true ↔ Rec.FinAcked { h.r with acks := k :: h.r.acks } := by
      rw [hfack, Bool.or_eq_true, h9]
    split
    · rename_i hx
      refine ⟨_, rfl, ⟨?_, hr, hi.id, hi.sentGe, hi.sentLe⟩⟩
      have hu := e2.ok.used
      unfold Tx.used at hu
      refine ⟨h1, h2, h3, h4, ?_, ?_, hx.2, fun i hil => ?_, hfa.mp hx.1⟩
      · rw [List.count_append, List.count_eq_zero_of_not_mem h5]; rfl
      · show tx'.retired = h.r.written.length
        have hu' : tx'.retired + tx'.buf.length = h.r.written.length := hu
        omega
      · apply e2.prefix_acked
        have hu' : tx'.retired + tx'.buf.length = h.r.written.length := hu
        have hil' : i < h.r.written.length := hil
        omega
    · rename_i hx
      refine ⟨_, rfl, ⟨?_, hr, hi.id, hi.sentGe, hi.sentLe⟩⟩
      exact ⟨h1, h2, h3, h4, h5, e2, h7, fun hf => (h8 hf).imp id (fun h => hfack.mpr (.inl h)), hfa, hx⟩
  | resetReliable tx err final rel prio acked =>
    rw [hs] at hst
    obtain ⟨h1, h2, h3, h4, h5, h6, h7, h8, h9⟩ := hst
    obtain ⟨tx', e1, e2, _⟩ := marks tx h4
    have hcm := hi.rcd.comm
    simp only [e1]
    split
    · rename_i hge
      cases acked with
      | true =>
        refine ⟨_, rfl, ⟨?_, hr, hi.id, hi.sentGe, hi.sentLe⟩⟩
        exact ⟨h1, h2, e2.ok.used, fun i hil => e2.prefix_acked (by have : i < h.r.committed := hil; omega),
          fun i hil => e2.prefix_acked hil, h8.symm⟩
      | false =>
        refine ⟨_, rfl, ⟨?_, hr, hi.id, hi.sentGe, hi.sentLe⟩⟩
        exact ⟨h1, h2, h3, e2.ok.used, Nat.le_of_eq h5.symm, by omega, fun i hil => e2.prefix_acked (by omega),
          fun i hil => e2.prefix_acked hil, h7, h8.symm, h9⟩
    · rename_i hlt
      refine ⟨_, rfl, ⟨?_, hr, hi.id, hi.sentGe, hi.sentLe⟩⟩
      exact ⟨h1, h2, h3, e2, h5, by omega, h7, h8, h9⟩
  | ready fc =>
    rw [hs] at hst
    obtain ⟨h1, h2, _⟩ := hst
    rw [h2] at hmem; cases hmem
  | dataRecvd rt w =>
    refine ⟨_, rfl, ⟨?_, hr, hi.id, hi.sentGe, hi.sentLe⟩⟩
    simp only [hs] at hst ⊢
    obtain ⟨h1, h2, h3, h4, h5, h6, h7, h8, h9⟩ := hst
    exact ⟨h1, h2, h3, h4, h5, h6, h7, fun i hil => (hack i).mpr (.inl (h8 i hil)), hfack.mpr (.inl h9)⟩
  | resetSent err final rel prio fr fw =>
    refine ⟨_, rfl, ⟨?_, hr, hi.id, hi.sentGe, hi.sentLe⟩⟩
    simp only [hs] at hst ⊢
    obtain ⟨h1, h2, h3, h4, h5, h6, h7, h8, h9⟩ := hst
    exact ⟨h1, h2, h3, h4, h5, h6, fun i hil => (hack i).mpr (.inl (h7 i hil)),
      fun i hil => (hack i).mpr (.inl (h8 i hil)), h9⟩
  | resetRecvd fr fw =>
    refine ⟨_, rfl, ⟨?_, hr, hi.id, hi.sentGe, hi.sentLe⟩⟩
    simp only [hs] at hst ⊢
    obtain ⟨h1, h2, h3, h4, h5, h6⟩ := hst
    exact ⟨h1, h2, h3, fun i hil => (hack i).mpr (.inl (h4 i hil)), fun i hil => (hack i).mpr (.inl (h5 i hil)), h6⟩

theorem RecOk_lost {r : Rec} (h : RecOk r) (k : Nat) : RecOk { r with live := r.live.filter (· ≠ k) } := by
  refine ⟨h.le, h.fin, ?_, h.acks, h.toks, h.data, h.reset, h.resetAt, h.comm, h.lim, h.lim62⟩
  intro k' hk
  exact h.live k' (List.mem_filter.mp hk).1

theorem markLost_inv {h : Hist} (hi : HInv h) {k : Nat} {t : Tok} (ht : h.r.toks[k]? = some t) :
    ∃ s', h.s.markLost t.off t.len t.fin = .ok s' ∧ HInv ⟨s', { h.r with live := h.r.live.filter (· ≠ k) }⟩ := by
  have hr := RecOk_lost hi.rcd k
  have hst := hi.st
  have marks : ∀ tx, Marks tx h.r → ∃ tx', tx.markLost t.off t.len = .ok tx' ∧
      Marks tx' { h.r with live := h.r.live.filter (· ≠ k) } ∧ tx'.ranges.acked = tx.ranges.acked ∧ tx'.buf = tx.buf := by
    intro tx hm
    obtain ⟨tx', e1, e2, e3, e4, e5, e6⟩ := hm.ok.markLost t.off t.len
    refine ⟨tx', e1, ⟨e2, fun i => ?_, fun i hx => ?_⟩, e3, e4⟩
    · rw [e5]; exact hm.acked i
    · obtain ⟨g1, g2⟩ := e6 i hx
      exact inFlight_lost ht (hm.sent i g1) g2
  unfold Stream.markLost
  cases hs : h.s.state with
  | send fc tx c =>
    rw [hs] at hst
    obtain ⟨h1, h2, h3, h4, h5, h6, h7, h8⟩ := hst
    obtain ⟨tx', e1, e2, e3, e4⟩ := marks tx h7
    simp only [State.onTx, e1]
    exact ⟨_, rfl, ⟨h1, h2, h3, h4, h5, ⟨h6.used, h6.limit, h6.blocked⟩, e2, h8⟩, hr, hi.id, hi.sentGe, hi.sentLe⟩
  | dataSent tx fs fa c =>
    rw [hs] at hst
    obtain ⟨h1, h2, h3, h4, h5, h6, h7, h8, h9, h10⟩ := hst
    obtain ⟨tx', e1, e2, e3, e4⟩ := marks tx h6
    simp only [State.onTx, e1]
    refine ⟨_, rfl, ⟨h1, h2, h3, h4, h5, e2, h7, fun hf => ?_, h9, by rw [e4]; exact h10⟩, hr, hi.id, hi.sentGe, hi.sentLe⟩
    cases hfin : t.fin with
    | true => rw [hfin, if_pos rfl] at hf; exact .inr (h9.mp hf)
    | false =>
      rw [hfin, if_neg (by decide)] at hf
      exact (h8 hf).imp (fun hx => finInFlight_lost ht hx hfin) id
  | resetReliable tx err final rel prio acked =>
    rw [hs] at hst
    obtain ⟨h1, h2, h3, h4, h5, h6, h7, h8, h9⟩ := hst
    obtain ⟨tx', e1, e2, e3, e4⟩ := marks tx h4
    simp only [State.onTx, e1]
    refine ⟨_, rfl, ⟨h1, h2, h3, e2, h5, ?_, h7, h8, h9⟩, hr, hi.id, hi.sentGe, hi.sentLe⟩
    unfold Tx.retired at h6 ⊢
    rw [e3]; exact h6
  | ready fc =>
    rw [hs] at hst
    obtain ⟨h1, h2, _⟩ := hst
    have hmem := List.mem_of_getElem? ht
    rw [h2] at hmem; cases hmem
  | dataRecvd rt w => rw [hs] at hst; exact ⟨_, rfl, hst, hr, hi.id, hi.sentGe, hi.sentLe⟩
  | resetSent err final rel prio fr fw => rw [hs] at hst; exact ⟨_, rfl, hst, hr, hi.id, hi.sentGe, hi.sentLe⟩
  | resetRecvd fr fw => rw [hs] at hst; exact ⟨_, rfl, hst, hr, hi.id, hi.sentGe, hi.sentLe⟩

theorem RecOk_resetAck {r : Rec} (h : RecOk r) (b : Bool) : RecOk { r with resetAck := b } :=
  ⟨h.le, h.fin, h.live, h.acks, h.toks, h.data, h.reset, h.resetAt, h.comm, h.lim, h.lim62⟩

theorem seen_state {h : Hist} (hi : HInv h) (hs : h.r.resetSeen = true) : isResetState h.s.state = true := by
  have hst := hi.st
  cases hx : h.s.state with
  | ready fc => rw [hx] at hst; obtain ⟨_, _, _, _, h5, _⟩ := hst; rw [hs] at h5; cases h5
  | send fc tx c => rw [hx] at hst; obtain ⟨_, _, h5, _⟩ := hst; rw [hs] at h5; cases h5
  | dataSent tx a b c => rw [hx] at hst; obtain ⟨_, _, h5, _⟩ := hst; rw [hs] at h5; cases h5
  | dataRecvd a b => rw [hx] at hst; obtain ⟨_, _, h5, _⟩ := hst; rw [hs] at h5; cases h5
  | _ => rfl

theorem resetAcked_ok {h : Hist} (hi : HInv h) (hs : h.r.resetSeen = true) :
    HInv ⟨h.s.resetAcked, { h.r with resetAck := true }⟩ := by
  have hr := RecOk_resetAck hi.rcd true
  have hst := hi.st
  have hx := seen_state hi hs
  unfold Stream.resetAcked
  cases he : h.s.state with
  | resetSent err final rel prio fr fw =>
    rw [he] at hst
    obtain ⟨h1, h2, h3, h4, h5, h6, h7, h8, h9, h10, h11⟩ := hst
    refine ⟨⟨h1, h2, h4, fun i hil => h7 i ?_, h8, rfl⟩, hr, hi.id, hi.sentGe, hi.sentLe⟩
    have : i < h.r.committed := hil
    omega
  | resetReliable tx err final rel prio acked =>
    rw [he] at hst
    obtain ⟨h1, h2, h3, h4, h5, h6, h7, h8, h9⟩ := hst
    simp only
    rw [if_neg (by omega)]
    exact ⟨⟨h1, h2, h3, ⟨h4.ok, h4.acked, h4.sent⟩, h5, h6, h7, rfl, h9⟩, hr, hi.id, hi.sentGe, hi.sentLe⟩
  | resetRecvd fr fw =>
    simp only
    refine ⟨?_, hr, hi.id, hi.sentGe, hi.sentLe⟩
    simp only [he] at hst ⊢
    obtain ⟨h1, h2, h3, h4, h5, h6⟩ := hst
    exact ⟨h1, h2, h3, h4, h5, rfl⟩
  | _ => rw [he] at hx; cases hx

theorem resetLost_ok {h : Hist} (hi : HInv h) (hs : h.r.resetSeen = true) :
    ∃ s', h.s.resetLost = .ok s' ∧ HInv ⟨s', h.r⟩ := by
  have hst := hi.st
  have hx := seen_state hi hs
  unfold Stream.resetLost
  cases he : h.s.state with
  | resetSent err final rel prio fr fw =>
    rw [he] at hst
    obtain ⟨h1, h2, h3, h4, h5, h6, h7, h8, h9, h10, h11⟩ := hst
    exact ⟨_, rfl, ⟨h1, h2, h3, h4, h5, h6, h7, h8, h9, h10, by rintro ⟨⟩⟩, hi.rcd, hi.id, hi.sentGe, hi.sentLe⟩
  | resetReliable tx err final rel prio acked =>
    rw [he] at hst
    obtain ⟨h1, h2, h3, h4, h5, h6, h7, h8, h9⟩ := hst
    exact ⟨_, rfl, ⟨h1, h2, h3, h4, h5, h6, h7, h8, by rintro ⟨⟩⟩, hi.rcd, hi.id, hi.sentGe, hi.sentLe⟩
  | resetRecvd fr fw => exact ⟨_, rfl, hi⟩
  | _ => rw [he] at hx; cases hx

theorem blockedLost_ok {h : Hist} (hi : HInv h) (l : Nat) : HInv ⟨h.s.blockedLost l, h.r⟩ := by
  have hst := hi.st
  unfold Stream.blockedLost
  cases he : h.s.state with
  | ready fc =>
    rw [he] at hst
    obtain ⟨h1, h2, h3, h4, h5, h6, h7, h8⟩ := hst
    exact ⟨⟨h1, h2, h3, h4, h5, h6, h7, fcok_frameLost h8 l⟩, hi.rcd, hi.id, hi.sentGe, hi.sentLe⟩
  | send fc tx c =>
    rw [he] at hst
    obtain ⟨h1, h2, h3, h4, h5, h6, h7, h8⟩ := hst
    exact ⟨⟨h1, h2, h3, h4, h5, fcok_frameLost h6 l, h7, h8⟩, hi.rcd, hi.id, hi.sentGe, hi.sentLe⟩
  | _ => exact hi

theorem RecOk_limit {r : Rec} (h : RecOk r) {l : Nat} (hl : l ≤ maxVarint) : RecOk { r with limit := max r.limit l } := by
  refine ⟨h.le, h.fin, h.live, h.acks, h.toks, h.data, h.reset, h.resetAt, h.comm, ?_, ?_⟩
  · have := h.lim; simp only; omega
  · have := h.lim62; simp only; omega

theorem fcok_update {fc : SFc} {r : Rec} (h : FcOk fc r) (l : Nat) : FcOk (fc.update l).1 { r with limit := max r.limit l } := by
  have hl := h.limit
  unfold SFc.update
  split
  · refine ⟨h.used, by simp only; omega, fun b hb => ?_⟩
    have := h.blocked b hb
    simp only; omega
  · exact ⟨h.used, by simp only; omega, h.blocked⟩

theorem setMax_ok {h : Hist} (hi : HInv h) (conn : SFc) {l : Nat} (hl : l ≤ maxVarint) :
    ∃ s', h.s.setMaxStreamData conn l = .ok s' ∧ HInv ⟨s', { h.r with limit := max h.r.limit l }⟩ := by
  have hst := hi.st
  have hr := RecOk_limit hi.rcd hl
  have stable : ∀ st, h.s.state = st → (∀ fc tx c, st ≠ .send fc tx c) → (∀ fc, st ≠ .ready fc) →
      HInv ⟨h.s, { h.r with limit := max h.r.limit l }⟩ := by
    intro st hs n1 n2
    refine ⟨?_, hr, hi.id, hi.sentGe, hi.sentLe⟩
    cases st with
    | ready fc => exact absurd rfl (n2 fc)
    | send fc tx c => exact absurd rfl (n1 fc tx c)
    | dataSent tx a b c =>
      simp only [hs] at hst ⊢
      obtain ⟨h1, h2, h3, h4, h5, h6, h7⟩ := hst
      exact ⟨h1, h2, h3, h4, h5, ⟨h6.ok, h6.acked, h6.sent⟩, h7⟩
    | dataRecvd a b => simp only [hs] at hst ⊢; exact hst
    | resetSent a b c d e f => simp only [hs] at hst ⊢; exact hst
    | resetReliable tx err final rel prio acked =>
      simp only [hs] at hst ⊢
      obtain ⟨h1, h2, h3, h4, h5⟩ := hst
      exact ⟨h1, h2, h3, ⟨h4.ok, h4.acked, h4.sent⟩, h5⟩
    | resetRecvd a b => simp only [hs] at hst ⊢; exact hst
  unfold Stream.setMaxStreamData
  cases he : h.s.state with
  | ready fc =>
    rw [he] at hst
    obtain ⟨h1, h2, h3, h4, h5, h6, h7, h8⟩ := hst
    have hu := fcok_update h8 l
    have hi' : HInv ⟨{ h.s with state := .ready (fc.update l).1 }, { h.r with limit := max h.r.limit l }⟩ :=
      ⟨⟨h1, h2, h3, h4, h5, h6, h7, hu⟩, hr, hi.id, hi.sentGe, hi.sentLe⟩
    simp only
    cases hup : fc.update l with
    | mk fc' o =>
      rw [hup] at hi'
      cases o with
      | none => exact ⟨_, rfl, hi'⟩
      | some cur =>
        simp only
        obtain ⟨s', e1, e2, _⟩ := maybeWritable_ok hi' conn fc.available cur
        exact ⟨s', e1, e2⟩
  | send fc tx c =>
    rw [he] at hst
    obtain ⟨h1, h2, h3, h4, h5, h6, h7, h8⟩ := hst
    have hu := fcok_update h6 l
    have hi' : HInv ⟨{ h.s with state := .send (fc.update l).1 tx c }, { h.r with limit := max h.r.limit l }⟩ :=
      ⟨⟨h1, h2, h3, h4, h5, hu, ⟨h7.ok, h7.acked, h7.sent⟩, h8⟩, hr, hi.id, hi.sentGe, hi.sentLe⟩
    simp only
    cases hup : fc.update l with
    | mk fc' o =>
      rw [hup] at hi'
      cases o with
      | none => exact ⟨_, rfl, hi'⟩
      | some cur =>
        simp only
        obtain ⟨s', e1, e2, _⟩ := maybeWritable_ok hi' conn fc.available cur
        exact ⟨s', e1, e2⟩
  | dataSent a b c d => exact ⟨_, rfl, stable _ he (by simp) (by simp)⟩
  | dataRecvd a b => exact ⟨_, rfl, stable _ he (by simp) (by simp)⟩
  | resetSent a b c d e f => exact ⟨_, rfl, stable _ he (by simp) (by simp)⟩
  | resetReliable a b c d e f => exact ⟨_, rfl, stable _ he (by simp) (by simp)⟩
  | resetRecvd a b => exact ⟨_, rfl, stable _ he (by simp) (by simp)⟩

/-! ## One step and many -/

theorem hist_step_ok {h : Hist} (hi : HInv h) (conn : SFc) {op : Op} (hv : op.Valid) :
    ∃ h' conn' out, h.step conn op = .ok (h', conn', out) ∧ HInv h' := by
  cases op with
  | write data atomic =>
    obtain ⟨s', conn', res, e1, _, e2, e3⟩ := sendInternal_ok hi conn data atomic
    simp only [Hist.step, e1]
    cases res with
    | wrote n => exact ⟨_, _, _, rfl, (e2 n rfl).2.1⟩
    | err e => exact ⟨_, _, _, rfl, (e3 e rfl).1⟩
  | close => exact ⟨_, _, _, rfl, close_ok hi⟩
  | commit =>
    obtain ⟨h1, h2⟩ := commit_ok hi
    simp only [Hist.step]
    cases hc : h.s.commit with
    | mk s' o =>
      rw [hc] at h1 h2
      cases o with
      | none => exact ⟨_, _, _, rfl, h1 rfl⟩
      | some e => exact ⟨_, _, _, rfl, h2 e rfl⟩
  | reset err => exact ⟨_, _, _, rfl, reset_ok hi hv⟩
  | stopSending err =>
    obtain ⟨h1, h2⟩ := dropCommitment_ok hi
    have := reset_ok h1 (err := err) hv
    simp only [h2] at this
    exact ⟨_, _, _, rfl, this⟩
  | setPriority p e => exact ⟨_, _, _, rfl, hi.st, hi.rcd, hi.id, hi.sentGe, hi.sentLe⟩
  | setWatermark w => exact ⟨_, _, _, rfl, hi.st, hi.rcd, hi.id, hi.sentGe, hi.sentLe⟩
  | maxStreamData l =>
    obtain ⟨s', e1, e2⟩ := setMax_ok hi conn (l := l) hv
    simp only [Hist.step, e1]
    exact ⟨_, _, _, rfl, e2⟩
  | frames p rem split =>
    obtain ⟨s', conn', w, e1, e2⟩ := writeFrames_ok hi conn p rem split
    simp only [Hist.step, e1]
    exact ⟨_, _, _, rfl, e2⟩
  | acked k =>
    simp only [Hist.step]
    cases ht : h.r.toks[k]? with
    | none => exact ⟨_, _, _, rfl, hi⟩
    | some t =>
      obtain ⟨s', e1, e2⟩ := markAcked_inv hi conn ht
      simp only [e1]
      exact ⟨_, _, _, rfl, e2⟩
  | lost k =>
    simp only [Hist.step]
    cases ht : h.r.toks[k]? with
    | none => exact ⟨_, _, _, rfl, hi⟩
    | some t =>
      obtain ⟨s', e1, e2⟩ := markLost_inv hi ht
      simp only [e1]
      exact ⟨_, _, _, rfl, e2⟩
  | resetAcked =>
    simp only [Hist.step]
    by_cases hs : h.r.resetSeen = true
    · rw [if_pos hs]; exact ⟨_, _, _, rfl, resetAcked_ok hi hs⟩
    · rw [if_neg hs]; exact ⟨_, _, _, rfl, hi⟩
  | resetLost =>
    simp only [Hist.step]
    cases hs : h.r.resetSeen with
    | false => exact ⟨_, _, _, rfl, hi⟩
    | true =>
      obtain ⟨s', e1, e2⟩ := resetLost_ok hi hs
      simp only [e1]
      exact ⟨_, _, _, rfl, e2⟩
  | blockedLost l => exact ⟨_, _, _, rfl, blockedLost_ok hi l⟩
  | connRaised p c =>
    obtain ⟨s', e1, e2, _⟩ := maybeWritable_ok hi conn p c
    simp only [Hist.step, e1]
    exact ⟨_, _, _, rfl, e2⟩

theorem hinv_new {id m : Nat} (hid : id ≤ maxVarint) (hm : m ≤ maxVarint) (conn : SFc) : HInv (Hist.new id m conn) := by
  have hev : Ev.complete ∉ (Stream.new id m conn).events := by
    unfold Stream.new
    simp only
    split <;> simp
  have hst : (Stream.new id m conn).state = .ready { limit := m } := by
    unfold Stream.new; simp only; split <;> rfl
  have hid' : (Stream.new id m conn).id = id := by unfold Stream.new; simp only; split <;> rfl
  have hb' : (Stream.new id m conn).bytesSent = 0 := by unfold Stream.new; simp only; split <;> rfl
  refine ⟨?_, ?_, ?_, ?_, ?_⟩
  · simp only [Hist.new, hst]
    exact ⟨rfl, rfl, rfl, rfl, rfl, rfl, hev, ⟨rfl, rfl, by rintro _ ⟨⟩⟩⟩
  · exact ⟨by simp [Hist.new], by simp [Hist.new], by simp [Hist.new], by simp [Hist.new], rfl, by simp [Hist.new],
      by simp [Hist.new], by simp [Hist.new], Nat.le_refl _, Nat.zero_le _, hm⟩
  · simp only [Hist.new, hid']; exact hid
  · simp [Hist.new]
  · simp only [Hist.new, hb']; exact Nat.zero_le _

theorem hist_run_ok {h : Hist} (hi : HInv h) {ops : List (SFc × Op)} (hv : ∀ p ∈ ops, p.2.Valid) :
    ∃ h', h.run ops = .ok h' ∧ HInv h' := by
  induction ops generalizing h with
  | nil => exact ⟨h, rfl, hi⟩
  | cons p ops ih =>
    obtain ⟨conn, op⟩ := p
    obtain ⟨h1, conn1, out, e1, e2⟩ := hist_step_ok hi conn (hv (conn, op) (by simp))
    obtain ⟨h2, e3, e4⟩ := ih e2 (fun p hp => hv p (by simp [hp]))
    refine ⟨h2, ?_, e4⟩
    simp only [Hist.run, e1]
    exact e3

end Neqo.Send
