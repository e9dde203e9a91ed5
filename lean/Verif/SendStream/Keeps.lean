import Verif.SendStream.FramesSpec

/-! # What operations leave alone -/
namespace Neqo.Send
open Neqo.Codec (Bytes maxVarint)
open Neqo.Flow (SFc)

/-- Fields that few operations change. -/
structure Keeps (s s' : Stream) : Prop where
  sent : s'.bytesSent = s.bytesSent
  retrans : s'.retransOff = s.retransOff
  mark : s'.watermark = s.watermark
  id : s'.id = s.id
  prio : s'.prio = s.prio
  eff : s'.effPrio = s.effPrio

theorem Keeps.refl (s : Stream) : Keeps s s := ⟨rfl, rfl, rfl, rfl, rfl, rfl⟩
theorem Keeps.trans {a b c : Stream} (h1 : Keeps a b) (h2 : Keeps b c) : Keeps a c :=
  ⟨h2.sent.trans h1.sent, h2.retrans.trans h1.retrans, h2.mark.trans h1.mark, h2.id.trans h1.id, h2.prio.trans h1.prio,
    h2.eff.trans h1.eff⟩

theorem keeps_state (s : Stream) (st : State) : Keeps s { s with state := st } := ⟨rfl, rfl, rfl, rfl, rfl, rfl⟩
theorem keeps_state_ev (s : Stream) (st : State) (e : List Ev) : Keeps s { s with state := st, events := e } :=
  ⟨rfl, rfl, rfl, rfl, rfl, rfl⟩

theorem keeps_maybeWritable {s s' : Stream} {conn : SFc} {p c : Nat} (h : s.maybeWritable conn p c = .ok s') : Keeps s s' := by
  unfold Stream.maybeWritable at h
  split at h
  · cases h
  · split at h <;> cases h
    · exact .refl _
    · exact ⟨rfl, rfl, rfl, rfl, rfl, rfl⟩

theorem keeps_setMax {s s' : Stream} {conn : SFc} {l : Nat} (h : s.setMaxStreamData conn l = .ok s') : Keeps s s' := by
  unfold Stream.setMaxStreamData at h
  simp only at h
  split at h
  · split at h
    · exact (keeps_state s _).trans (keeps_maybeWritable h)
    · cases h; exact keeps_state s _
  · split at h
    · exact (keeps_state s _).trans (keeps_maybeWritable h)
    · cases h; exact keeps_state s _
  · cases h; exact .refl _

theorem keeps_blockedIfNeeded (s : Stream) (conn : SFc) (n : Nat) : Keeps s (s.blockedIfNeeded conn n).1 := by
  unfold Stream.blockedIfNeeded
  split <;> exact ⟨rfl, rfl, rfl, rfl, rfl, rfl⟩

theorem keeps_toSend (s : Stream) : Keeps s s.toSend := by
  unfold Stream.toSend
  split <;> exact ⟨rfl, rfl, rfl, rfl, rfl, rfl⟩

theorem keeps_accept {s s' : Stream} {conn conn' : SFc} {d : Bytes} {r : SendRes} (h : s.accept conn d = .ok (s', conn', r)) :
    Keeps s s' := by
  unfold Stream.accept at h
  split at h
  · split at h
    · cases h
    · split at h
      · cases h
      · split at h
        · cases h
        · cases h; exact keeps_state s _
  · cases h; exact .refl _

theorem keeps_send {s s' : Stream} {conn conn' : SFc} {d : Bytes} {a : Bool} {r : SendRes}
    (h : s.sendInternal conn d a = .ok (s', conn', r)) : Keeps s s' := by
  unfold Stream.sendInternal at h
  split at h
  · cases h; exact .refl _
  · refine (keeps_toSend s).trans ?_
    simp only at h
    split at h
    · split at h
      · cases h
      · split at h
        · cases h; exact .refl _
        · split at h
          · split at h
            · cases h; exact keeps_blockedIfNeeded _ _ _
            · exact keeps_accept h
          · exact keeps_accept h
    · cases h; exact .refl _

theorem keeps_close (s : Stream) : Keeps s s.close := by
  unfold Stream.close; split <;> exact ⟨rfl, rfl, rfl, rfl, rfl, rfl⟩

theorem keeps_commit (s : Stream) : Keeps s s.commit.1 := by
  unfold Stream.commit; split <;> exact ⟨rfl, rfl, rfl, rfl, rfl, rfl⟩

theorem keeps_reset (s : Stream) (e : Nat) : Keeps s (s.reset e) := by
  unfold Stream.reset; split <;> exact ⟨rfl, rfl, rfl, rfl, rfl, rfl⟩

theorem keeps_drop (s : Stream) : Keeps s s.dropCommitment := by
  unfold Stream.dropCommitment
  split
  · exact keeps_state s _
  · exact keeps_state s _
  · split <;> exact keeps_state s _
  · exact .refl _

theorem keeps_resetAcked (s : Stream) : Keeps s s.resetAcked := by
  unfold Stream.resetAcked
  split
  · exact keeps_state s _
  · split <;> exact keeps_state s _
  · exact .refl _

theorem keeps_resetLost {s s' : Stream} (h : s.resetLost = .ok s') : Keeps s s' := by
  unfold Stream.resetLost at h
  split at h <;> cases h
  · exact keeps_state s _
  · exact keeps_state s _
  · exact .refl _

theorem keeps_blockedLost (s : Stream) (l : Nat) : Keeps s (s.blockedLost l) := by
  unfold Stream.blockedLost; split <;> exact ⟨rfl, rfl, rfl, rfl, rfl, rfl⟩

theorem keeps_markAcked {s s' : Stream} {conn : SFc} {o l : Nat} {f : Bool} (h : s.markAcked conn o l f = .ok s') : Keeps s s' := by
  unfold Stream.markAcked at h
  split at h
  · split at h
    · cases h
    · split at h
      · cases h
      · split at h
        · cases h
        · exact (keeps_state s _).trans (keeps_maybeWritable h)
  · split at h
    · cases h
    · simp only at h
      split at h
      · cases h; exact keeps_state_ev s _ _
      · cases h; exact keeps_state s _
  · split at h
    · cases h
    · split at h
      · split at h <;> cases h <;> exact keeps_state s _
      · cases h; exact keeps_state s _
  · cases h; exact .refl _

/-! ## Writing frames -/

theorem markSent_keeps {s s' : Stream} {conn conn' : SFc} {o l : Nat} {f : Bool}
    (h : s.markSent conn o l f = .ok (s', conn')) :
    s'.bytesSent = max s.bytesSent (o + l) ∧ s'.retransOff = s.retransOff ∧ s'.watermark = s.watermark ∧ s'.events = s.events := by
  unfold Stream.markSent at h
  split at h
  · cases h
  · cases h
    rename_i st _
    have k := keeps_blockedIfNeeded { s with state := st, bytesSent := max s.bytesSent (o + l) } conn 0
    have e : (Stream.blockedIfNeeded { s with state := st, bytesSent := max s.bytesSent (o + l) } conn 0).1.events = s.events := by
      unfold Stream.blockedIfNeeded
      split <;> rfl
    exact ⟨k.sent, k.retrans, k.mark, e⟩

theorem nextBytes_keeps {s s' : Stream} {split : Nat} {r : Bool} {o : Option (Nat × Bytes)}
    (h : s.nextBytes split r = .ok (s', o)) : Keeps s s' ∧ s'.events = s.events := by
  unfold Stream.nextBytes at h
  split at h
  · split at h
    · cases h
    · cases h; exact ⟨keeps_state s _, rfl⟩
  · split at h
    · cases h
    · cases h; exact ⟨keeps_state s _, rfl⟩
  · split at h
    · cases h
    · cases h; exact ⟨keeps_state s _, rfl⟩
  · cases h; exact ⟨.refl _, rfl⟩

theorem writeReset_keeps {s s' : Stream} {p : Prio} {rem : Nat} {w : Wrote} {b : Bool}
    (h : s.writeReset p rem = .ok (s', w, b)) : Keeps s s' ∧ s'.events = s.events := by
  unfold Stream.writeReset at h
  split at h
  · split at h
    · cases h; exact ⟨.refl _, rfl⟩
    · split at h
      · cases h
      · split at h <;> cases h
        · exact ⟨keeps_state s _, rfl⟩
        · exact ⟨.refl _, rfl⟩
  · split at h
    · cases h; exact ⟨.refl _, rfl⟩
    · split at h
      · cases h
      · split at h <;> cases h
        · exact ⟨keeps_state s _, rfl⟩
        · exact ⟨.refl _, rfl⟩
  · cases h; exact ⟨.refl _, rfl⟩

theorem writeBlocked_keeps {s s' : Stream} {p : Prio} {rem : Nat} {w : Wrote}
    (h : s.writeBlocked p rem = .ok (s', w)) : Keeps s s' ∧ s'.events = s.events := by
  unfold Stream.writeBlocked at h
  split at h
  · split at h
    · split at h
      · cases h
      · cases h; exact ⟨keeps_state s _, rfl⟩
    · split at h
      · cases h
      · cases h; exact ⟨keeps_state s _, rfl⟩
    · cases h; exact ⟨.refl _, rfl⟩
  · cases h; exact ⟨.refl _, rfl⟩

theorem maxEnd_append (a b : List Tok) : maxEnd (a ++ b) = max (maxEnd a) (maxEnd b) := by
  unfold maxEnd
  induction a with
  | nil => simp
  | cons t a ih => simp only [List.cons_append, List.foldr_cons, ih]; omega

theorem le_maxEnd {t : Tok} {ts : List Tok} (h : t ∈ ts) : t.off + t.len ≤ maxEnd ts := by
  unfold maxEnd
  induction ts with
  | nil => cases h
  | cons a ts ih =>
    simp only [List.foldr_cons]
    rcases List.mem_cons.mp h with rfl | h
    · omega
    · have := ih h; omega

theorem writeStream_keeps {s s' : Stream} {conn conn' : SFc} {p : Prio} {rem split : Nat} {w : Wrote}
    (h : s.writeStream conn p rem split = .ok (s', conn', w)) :
    s'.bytesSent = max s.bytesSent (maxEnd (w.frames.filterMap tokOf)) ∧ s'.retransOff = s.retransOff ∧
    s'.watermark = s.watermark ∧ s'.events = s.events := by
  have hz : ∀ {a b : Stream}, Keeps a b → b.events = a.events →
      b.bytesSent = max a.bytesSent (maxEnd (([] : List Frame).filterMap tokOf)) ∧ b.retransOff = a.retransOff ∧
      b.watermark = a.watermark ∧ b.events = a.events := by
    intro a b k e
    exact ⟨by rw [k.sent]; simp [maxEnd], k.retrans, k.mark, e⟩
  unfold Stream.writeStream at h
  split at h
  · cases h; exact hz (.refl _) rfl
  · split at h
    · cases h
    · rename_i h1
      cases h
      obtain ⟨k1, k2⟩ := nextBytes_keeps h1
      exact hz k1 k2
    · rename_i s1 off data h1
      obtain ⟨k1, k2⟩ := nextBytes_keeps h1
      unfold Stream.writeData at h
      split at h
      · cases h
      · split at h
        · cases h; exact hz k1 k2
        · split at h
          · cases h
          · rename_i length fill hlf
            simp only at h
            split at h
            · cases h; exact hz k1 k2
            · split at h
              · cases h
              · split at h
                · cases h
                · rename_i h2
                  cases h
                  obtain ⟨m1, m2, m3, m4⟩ := markSent_keeps h2
                  refine ⟨?_, m2.trans k1.retrans, m3.trans k1.mark, m4.trans k2⟩
                  rw [m1, k1.sent]
                  have hle : length ≤ data.length := by
                    unfold lengthAndFill at hlf
                    split at hlf
                    · cases hlf; assumption
                    · split at hlf
                      · cases hlf
                      · cases hlf; exact Nat.le_refl _
                  simp only [List.filterMap_cons, tokOf, List.filterMap_nil, maxEnd, List.foldr_cons, List.foldr_nil,
                    List.length_take]
                  omega

theorem writeFrames_keeps {s s' : Stream} {conn conn' : SFc} {p : Prio} {rem split : Nat} {w : Wrote}
    (h : s.writeFrames conn p rem split = .ok (s', conn', w)) :
    s'.bytesSent = max s.bytesSent (maxEnd (w.frames.filterMap tokOf)) ∧ s'.retransOff = s.retransOff ∧
    s'.watermark = s.watermark ∧ s'.events = s.events := by
  have hreset : ∀ {s1 : Stream} {w1 : Wrote} {b : Bool}, s.writeReset p rem = .ok (s1, w1, b) → w1.frames.filterMap tokOf = [] := by
    intro s1 w1 b h1
    unfold Stream.writeReset at h1
    split at h1
    · split at h1
      · cases h1; rfl
      · split at h1
        · cases h1
        · split at h1 <;> cases h1
          · exact tokOf_reset _ _ _
          · rfl
    · split at h1
      · cases h1; rfl
      · split at h1
        · cases h1
        · split at h1 <;> cases h1
          · exact tokOf_reset _ _ _
          · rfl
    · cases h1; rfl
  unfold Stream.writeFrames at h
  split at h
  · cases h
  · rename_i h1
    cases h
    obtain ⟨k1, k2⟩ := writeReset_keeps h1
    rw [hreset h1]
    exact ⟨by rw [k1.sent]; simp [maxEnd], k1.retrans, k1.mark, k2⟩
  · rename_i s1 w1 h1
    obtain ⟨k1, k2⟩ := writeReset_keeps h1
    split at h
    · cases h
    · rename_i s2 w2 h2
      obtain ⟨k3, k4⟩ := writeBlocked_keeps h2
      have t2 : w2.frames.filterMap tokOf = [] := by
        rcases (writeBlocked_spec h2).2.1 with hx | ⟨l, hx⟩ <;> rw [hx] <;> rfl
      split at h
      · cases h
        simp only [List.filterMap_append, hreset h1, t2]
        exact ⟨by rw [k3.sent, k1.sent]; simp [maxEnd], k3.retrans.trans k1.retrans, k3.mark.trans k1.mark, k4.trans k2⟩
      · split at h
        · cases h
        · rename_i h3
          cases h
          obtain ⟨m1, m2, m3, m4⟩ := writeStream_keeps h3
          simp only [List.filterMap_append, hreset h1, t2, List.nil_append]
          exact ⟨by rw [m1, k3.sent, k1.sent], m2.trans (k3.retrans.trans k1.retrans), m3.trans (k3.mark.trans k1.mark),
            m4.trans (k4.trans k2)⟩

/-! ## Second invariant: statistics and the retransmission limit -/

structure HInv2 (h : Hist) : Prop where
  exact : h.s.bytesSent = maxEnd h.r.toks
  lost : ∀ k t, h.r.toks[k]? = some t → k ∉ h.r.live → t.off + t.len ≤ h.s.retransOff

theorem HInv2.keep {h h' : Hist} (hi : HInv2 h) (k : Keeps h.s h'.s) (ht : h'.r.toks = h.r.toks) (hl : h'.r.live = h.r.live) :
    HInv2 h' :=
  ⟨by rw [k.sent, ht]; exact hi.exact, fun n t h1 h2 => by rw [k.retrans]; rw [ht] at h1; rw [hl] at h2; exact hi.lost n t h1 h2⟩

theorem hinv2_step {h h' : Hist} {conn conn' : SFc} {op : Op} {out : Out} (hi : HInv2 h)
    (hs : h.step conn op = .ok (h', conn', out)) : HInv2 h' := by
  cases op with
  | write data atomic =>
    simp only [Hist.step, Except.bind_eq_ok] at hs
    obtain ⟨⟨s', c', res⟩, e1, e2⟩ := hs
    have k := keeps_send e1
    cases res <;> cases e2
    · exact hi.keep k rfl rfl
    · exact hi.keep k rfl rfl
  | close => cases hs; exact hi.keep (keeps_close _) rfl rfl
  | commit =>
    have k := keeps_commit h.s
    simp only [Hist.step] at hs
    split at hs <;> rename_i e1 <;> rw [e1] at k <;> cases hs
    · exact hi.keep k rfl rfl
    · exact hi.keep k rfl rfl
  | reset err => cases hs; exact hi.keep (keeps_reset _ _) rfl rfl
  | stopSending err => cases hs; exact hi.keep ((keeps_drop _).trans (keeps_reset _ _)) rfl rfl
  | setPriority p e => cases hs; exact ⟨hi.exact, hi.lost⟩
  | setWatermark w => cases hs; exact ⟨hi.exact, hi.lost⟩
  | maxStreamData l =>
    simp only [Hist.step, Except.bind_eq_ok] at hs
    obtain ⟨_, e1, e⟩ := hs
    cases e; exact hi.keep (keeps_setMax e1) rfl rfl
  | frames p rem split =>
    simp only [Hist.step, Except.bind_eq_ok] at hs
    obtain ⟨⟨s', c', w⟩, e1, e2⟩ := hs
    cases e2
    obtain ⟨k1, k2, _⟩ := writeFrames_keeps e1
    refine ⟨?_, fun k t h1 h2 => ?_⟩
    · simp only [Rec.sent, maxEnd_append]
      rw [k1, hi.exact]
    · simp only
      rw [k2]
      simp only [Rec.sent] at h1 h2
      simp only [List.mem_append, not_or] at h2
      rcases Nat.lt_or_ge k h.r.toks.length with hlt | hge
      · rw [List.getElem?_append_left hlt] at h1
        exact hi.lost k t h1 h2.1
      · exfalso
        apply h2.2
        rw [List.getElem?_append_right hge] at h1
        have := (List.getElem?_eq_some_iff.mp h1).1
        rw [List.mem_map]
        exact ⟨k - h.r.toks.length, List.mem_range.mpr this, by omega⟩
  | acked k =>
    simp only [Hist.step] at hs
    split at hs
    · cases hs; exact hi
    · simp only [Except.bind_eq_ok] at hs
      obtain ⟨_, e1, e⟩ := hs
      cases e; exact hi.keep (keeps_markAcked e1) rfl rfl
  | lost k =>
    simp only [Hist.step] at hs
    split at hs
    · cases hs; exact hi
    · rename_i t0 ht0
      simp only [Except.bind_eq_ok] at hs
      obtain ⟨s', e1, e⟩ := hs
      cases e
      unfold Stream.markLost at e1
      split at e1
      · cases e1
      · cases e1
        refine ⟨hi.exact, fun k' t h1 h2 => ?_⟩
        simp only at h1 h2 ⊢
        by_cases hk : k' = k
        · subst hk
          rw [ht0] at h1; cases h1
          omega
        · have hn : k' ∉ h.r.live := by
            intro hx
            exact h2 (List.mem_filter.mpr ⟨hx, by simp [hk]⟩)
          have := hi.lost k' t h1 hn
          omega
  | resetAcked =>
    simp only [Hist.step] at hs
    split at hs <;> cases hs
    · exact hi.keep (keeps_resetAcked _) rfl rfl
    · exact hi
  | resetLost =>
    simp only [Hist.step] at hs
    split at hs
    · simp only [Except.bind_eq_ok] at hs
      obtain ⟨_, e1, e⟩ := hs
      cases e; exact hi.keep (keeps_resetLost e1) rfl rfl
    · cases hs; exact hi
  | blockedLost l => cases hs; exact hi.keep (keeps_blockedLost _ _) rfl rfl
  | connRaised p c =>
    simp only [Hist.step, Except.bind_eq_ok] at hs
    obtain ⟨_, e1, e⟩ := hs
    cases e; exact hi.keep (keeps_maybeWritable e1) rfl rfl

theorem hinv2_new (id m : Nat) (conn : SFc) : HInv2 (Hist.new id m conn) := by
  refine ⟨?_, fun k t h => by cases h⟩
  simp only [Hist.new, Stream.new, maxEnd]
  split <;> rfl

theorem hinv2_run {h h' : Hist} {ops : List (SFc × Op)} (hi : HInv2 h) (hr : h.run ops = .ok h') : HInv2 h' := by
  induction ops generalizing h with
  | nil => cases hr; exact hi
  | cons p ops ih =>
    simp only [Hist.run, Except.bind_eq_ok] at hr
    obtain ⟨⟨h1, c1, o1⟩, e1, e2⟩ := hr
    exact ih (hinv2_step hi e1) e2

end Neqo.Send
