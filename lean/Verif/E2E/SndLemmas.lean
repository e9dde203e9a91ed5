import Verif.E2E.Model
import Verif.SendStream.ConnProps
import Verif.SendStream.Props

/-! # What one operation of the sender changes -/
namespace Neqo.Send
open Neqo.Codec (Bytes maxVarint)
open Neqo.Flow (SFc)

/-- What an operation may do to the record of a stream. -/
structure Grow (op : Op) (h h' : Hist) : Prop where
  frames : ∃ fs, h'.r.frames = h.r.frames ++ fs
  written : ∃ x, h'.r.written = h.r.written ++ x
  closed : h.r.closed = true → h'.r.closed = true
  reset : h.r.resetCalled = true → h'.r.resetCalled = true
  limit : h'.r.limit = h.r.limit ∨ ∃ l, op = .maxStreamData l ∧ h'.r.limit = max h.r.limit l
  acks : ∀ i ∈ h'.r.acks, i ∈ h.r.acks ∨ (op = .acked i ∧ i < h.r.toks.length)

theorem grow_rec {op : Op} {h h' : Hist} (e : h'.r = h.r) : Grow op h h' := by
  refine ⟨⟨[], by simp [e]⟩, ⟨[], by simp [e]⟩, by rw [e]; exact id, by rw [e]; exact id, .inl (by rw [e]), fun i hi => .inl (by rw [← e]; exact hi)⟩

theorem grow_step {h h' : Hist} {conn conn' : SFc} {op : Op} {out : Out}
    (hs : h.step conn op = .ok (h', conn', out)) : Grow op h h' := by
  cases op with
  | write data atomic =>
    simp only [Hist.step, Except.bind_eq_ok] at hs
    obtain ⟨⟨s', c', res⟩, e1, e2⟩ := hs
    cases res with
    | wrote n => cases e2; exact ⟨⟨[], by simp⟩, ⟨_, rfl⟩, id, id, .inl rfl, fun i h => .inl h⟩
    | err e => cases e2; exact grow_rec rfl
  | close => cases hs; exact ⟨⟨[], by simp⟩, ⟨[], by simp⟩, by intro h; simp [h], id, .inl rfl, fun i h => .inl h⟩
  | commit =>
    simp only [Hist.step] at hs
    split at hs <;> cases hs <;> exact ⟨⟨[], by simp⟩, ⟨[], by simp⟩, id, id, .inl rfl, fun i h => .inl h⟩
  | reset err => cases hs; exact ⟨⟨[], by simp⟩, ⟨[], by simp⟩, id, by intro h; simp [h], .inl rfl, fun i h => .inl h⟩
  | stopSending err => cases hs; exact ⟨⟨[], by simp⟩, ⟨[], by simp⟩, id, by intro h; simp [h], .inl rfl, fun i h => .inl h⟩
  | setPriority p e => cases hs; exact grow_rec rfl
  | setWatermark w => cases hs; exact grow_rec rfl
  | maxStreamData l =>
    simp only [Hist.step, Except.bind_eq_ok] at hs
    obtain ⟨_, _, e⟩ := hs
    cases e; exact ⟨⟨[], by simp⟩, ⟨[], by simp⟩, id, id, .inr ⟨l, rfl, rfl⟩, fun i h => .inl h⟩
  | frames p rem split =>
    obtain ⟨w, _, _, e⟩ := step_frames hs
    refine ⟨⟨w.frames, by rw [e]; rfl⟩, ⟨[], by rw [e]; simp [Rec.sent]⟩, ?_, ?_, .inl (by rw [e]; rfl), ?_⟩ <;> rw [e]
    · exact id
    · exact id
    · exact fun i h => .inl h
  | acked k =>
    simp only [Hist.step] at hs
    split at hs
    · cases hs; exact grow_rec rfl
    · rename_i t ht
      simp only [Except.bind_eq_ok] at hs
      obtain ⟨_, _, e⟩ := hs
      cases e
      refine ⟨⟨[], by simp⟩, ⟨[], by simp⟩, id, id, .inl rfl, fun i h => ?_⟩
      rcases List.mem_cons.mp h with rfl | h
      · exact .inr ⟨rfl, (List.getElem?_eq_some_iff.mp ht).1⟩
      · exact .inl h
  | lost k =>
    simp only [Hist.step] at hs
    split at hs
    · cases hs; exact grow_rec rfl
    · simp only [Except.bind_eq_ok] at hs
      obtain ⟨_, _, e⟩ := hs
      cases e; exact ⟨⟨[], by simp⟩, ⟨[], by simp⟩, id, id, .inl rfl, fun i h => .inl h⟩
  | resetAcked =>
    simp only [Hist.step] at hs
    split at hs <;> cases hs <;> exact ⟨⟨[], by simp⟩, ⟨[], by simp⟩, id, id, .inl rfl, fun i h => .inl h⟩
  | resetLost =>
    simp only [Hist.step] at hs
    split at hs
    · simp only [Except.bind_eq_ok] at hs
      obtain ⟨_, _, e⟩ := hs
      cases e; exact grow_rec rfl
    · cases hs; exact grow_rec rfl
  | blockedLost l => cases hs; exact grow_rec rfl
  | connRaised p c =>
    simp only [Hist.step, Except.bind_eq_ok] at hs
    obtain ⟨_, _, e⟩ := hs
    cases e; exact grow_rec rfl

theorem raiseAll_spec {hs hs' : List Hist} {fc : SFc} {p c : Nat} (hr : raiseAll fc p c hs = .ok hs') :
    hs'.length = hs.length ∧ ∀ (k : Nat) (h' : Hist), hs'[k]? = some h' → ∃ (h : Hist) (fc' : SFc) (out : Out), hs[k]? = some h ∧
      h.step fc (.connRaised p c) = .ok (h', fc', out) := by
  induction hs generalizing hs' with
  | nil => cases hr; exact ⟨rfl, fun k h' e => by simp at e⟩
  | cons a hs ih =>
    simp only [raiseAll, Except.bind_eq_ok] at hr
    obtain ⟨⟨a', f, o⟩, e1, bs, e2, e3⟩ := hr
    cases e3
    obtain ⟨i1, i2⟩ := ih e2
    refine ⟨by simp [i1], fun k h' e => ?_⟩
    cases k with
    | zero => simp at e; subst e; exact ⟨a, f, o, by simp, e1⟩
    | succ k =>
      simp only [List.getElem?_cons_succ] at e ⊢
      exact i2 k h' e

/-- Where each stream stands after one step. -/
theorem snd_stream {c c' : Conn} {op : COp} (hs : c.step op = .ok c') {k : Nat} {h' : Hist} (hk : c'.streams[k]? = some h') :
    (∃ h, c.streams[k]? = some h ∧ (h' = h ∨ ∃ conn op' conn' out, h.step conn op' = .ok (h', conn', out) ∧
      (op = .stream k op' ∨ ∃ p q, op' = .connRaised p q))) ∨
    (∃ id m, op = .opens id m ∧ k = c.streams.length ∧ h' = Hist.new id m c.fc) := by
  cases op with
  | opens id m =>
    cases hs
    simp only [List.getElem?_append] at hk
    split at hk
    · exact .inl ⟨h', hk, .inl rfl⟩
    · rename_i hlt
      have hz : k - c.streams.length = 0 := by
        by_contra hne
        rw [List.getElem?_eq_none (by simp; omega)] at hk
        cases hk
      rw [hz] at hk
      cases hk
      exact .inr ⟨id, m, rfl, by omega, rfl⟩
  | stream j op =>
    simp only [Conn.step] at hs
    split at hs
    · cases hs; exact .inl ⟨h', hk, .inl rfl⟩
    · rename_i h hj
      simp only [Except.bind_eq_ok] at hs
      obtain ⟨⟨h1, fc', o⟩, e1, e2⟩ := hs
      cases e2
      simp only at hk
      by_cases hjk : j = k
      · subst hjk
        rw [List.getElem?_set_self (List.getElem?_eq_some_iff.mp hj).1] at hk
        cases hk
        exact .inl ⟨h, hj, .inr ⟨_, _, _, _, e1, .inl rfl⟩⟩
      · rw [List.getElem?_set_ne hjk] at hk
        exact .inl ⟨h', hk, .inl rfl⟩
  | maxData l =>
    simp only [Conn.step] at hs
    split at hs
    · cases hs; exact .inl ⟨h', hk, .inl rfl⟩
    · simp only [Except.bind_eq_ok] at hs
      obtain ⟨hs1, e1, e2⟩ := hs
      cases e2
      obtain ⟨h, fc', out, g1, g2⟩ := (raiseAll_spec e1).2 k h' hk
      exact .inl ⟨h, g1, .inr ⟨_, _, _, _, g2, .inr ⟨_, _, rfl⟩⟩⟩
  | initialMaxData l => cases hs; exact .inl ⟨h', hk, .inl rfl⟩
  | write fits => cases hs; exact .inl ⟨h', hk, .inl rfl⟩
  | blockedLost l => cases hs; exact .inl ⟨h', hk, .inl rfl⟩

theorem snd_length {c c' : Conn} {op : COp} (hs : c.step op = .ok c') :
    c'.streams.length = c.streams.length + (match op with | .opens _ _ => 1 | _ => 0) := by
  cases op with
  | opens id m => cases hs; simp
  | stream j op =>
    simp only [Conn.step] at hs
    split at hs
    · cases hs; rfl
    · simp only [Except.bind_eq_ok] at hs
      obtain ⟨_, _, e2⟩ := hs
      cases e2; simp
  | maxData l =>
    simp only [Conn.step] at hs
    split at hs
    · cases hs; rfl
    · simp only [Except.bind_eq_ok] at hs
      obtain ⟨hs1, e1, e2⟩ := hs
      cases e2
      exact (raiseAll_spec e1).1
  | initialMaxData l => cases hs; rfl
  | write fits => cases hs; rfl
  | blockedLost l => cases hs; rfl

theorem snd_limit {c c' : Conn} {op : COp} (hs : c.step op = .ok c') :
    c'.limit = c.limit ∨ ∃ l, (op = .maxData l ∨ op = .initialMaxData l) ∧ c'.limit = max c.limit l := by
  cases op with
  | opens id m => cases hs; exact .inl rfl
  | stream j op =>
    simp only [Conn.step] at hs
    split at hs
    · cases hs; exact .inl rfl
    · simp only [Except.bind_eq_ok] at hs
      obtain ⟨_, _, e2⟩ := hs
      cases e2; exact .inl rfl
  | maxData l =>
    right
    refine ⟨l, .inl rfl, ?_⟩
    simp only [Conn.step] at hs
    split at hs
    · cases hs; rfl
    · simp only [Except.bind_eq_ok] at hs
      obtain ⟨hs1, e1, e2⟩ := hs
      cases e2
      rfl
  | initialMaxData l => cases hs; exact .inr ⟨l, .inr rfl, rfl⟩
  | write fits => cases hs; exact .inl rfl
  | blockedLost l => cases hs; exact .inl rfl

/-! ## The error code of resets -/

/-- The error code a stream is being reset with. -/
def State.resetErr : State → Option Nat
  | .resetSent err _ _ _ _ _ => some err
  | .resetReliable _ err _ _ _ _ => some err
  | _ => none

def Frame.resetErr : Frame → Option Nat
  | .reset e _ => some e
  | .resetAt e _ _ => some e
  | _ => none

theorem resetFrame_err (e f r : Nat) : (resetFrame e f r).resetErr = some e := by
  unfold resetFrame; split <;> rfl

theorem onTx_resetErr {st st' : State} {f : Tx → Except Err Tx} (h : st.onTx f = .ok st') : st'.resetErr = st.resetErr := by
  unfold State.onTx at h
  split at h
  all_goals first
    | (cases h; rfl)
    | (split at h
       · cases h; rfl
       · cases h)

theorem blockedIfNeeded_resetErr (s : Stream) (conn : SFc) (n : Nat) :
    (s.blockedIfNeeded conn n).1.state.resetErr = s.state.resetErr := by
  unfold Stream.blockedIfNeeded
  split <;> simp_all [State.resetErr]

theorem finSent_resetErr (st : State) (f : Bool) : (st.finSent f).resetErr = st.resetErr := by
  unfold State.finSent
  split <;> rfl

theorem markSent_resetErr {s s' : Stream} {conn conn' : SFc} {o l : Nat} {f : Bool}
    (h : s.markSent conn o l f = .ok (s', conn')) : s'.state.resetErr = s.state.resetErr := by
  unfold Stream.markSent at h
  split at h
  · cases h
  · rename_i st hst
    cases h
    simp only [finSent_resetErr, blockedIfNeeded_resetErr]
    exact onTx_resetErr hst

theorem nextBytes_resetErr {s s' : Stream} {split : Nat} {r : Bool} {o : Option (Nat × Bytes)}
    (h : s.nextBytes split r = .ok (s', o)) : s'.state.resetErr = s.state.resetErr := by
  unfold Stream.nextBytes at h
  split at h
  all_goals first
    | (split at h
       · cases h
       · cases h; simp_all [State.resetErr])
    | (cases h; rfl)

theorem writeData_resetErr {s s' : Stream} {conn conn' : SFc} {fo : Option Nat} {rem off : Nat} {d : Bytes} {w : Wrote}
    (h : s.writeData conn fo rem off d = .ok (s', conn', w)) :
    s'.state.resetErr = s.state.resetErr ∧ ∀ f ∈ w.frames, f.resetErr = none := by
  unfold Stream.writeData at h
  split at h
  · cases h
  split at h
  · cases h; exact ⟨rfl, by simp⟩
  split at h
  · cases h
  simp only at h
  split at h
  · cases h; exact ⟨rfl, by simp⟩
  split at h
  · cases h
  split at h
  · cases h
  rename_i hm
  cases h
  exact ⟨markSent_resetErr hm, by simp [Frame.resetErr]⟩

theorem writeStream_resetErr {s s' : Stream} {conn conn' : SFc} {p : Prio} {rem split : Nat} {w : Wrote}
    (h : s.writeStream conn p rem split = .ok (s', conn', w)) :
    s'.state.resetErr = s.state.resetErr ∧ ∀ f ∈ w.frames, f.resetErr = none := by
  unfold Stream.writeStream at h
  split at h
  · cases h; exact ⟨rfl, by simp⟩
  split at h
  · cases h
  · rename_i hn
    cases h
    exact ⟨nextBytes_resetErr hn, by simp⟩
  · rename_i hn
    obtain ⟨h1, h2⟩ := writeData_resetErr h
    exact ⟨h1.trans (nextBytes_resetErr hn), h2⟩

theorem writeReset_resetErr {s s' : Stream} {p : Prio} {rem : Nat} {w : Wrote} {b : Bool}
    (h : s.writeReset p rem = .ok (s', w, b)) :
    s'.state.resetErr = s.state.resetErr ∧ ∀ f ∈ w.frames, f.resetErr = s.state.resetErr := by
  unfold Stream.writeReset at h
  split at h
  · rename_i hst
    split at h
    · cases h; exact ⟨rfl, by simp⟩
    split at h
    · cases h
    split at h
    · cases h; rw [hst]; exact ⟨rfl, by simp [resetFrame_err, State.resetErr]⟩
    · cases h; exact ⟨rfl, by simp⟩
  · rename_i hst
    split at h
    · cases h; exact ⟨rfl, by simp⟩
    split at h
    · cases h
    split at h
    · cases h; rw [hst]; exact ⟨rfl, by simp [resetFrame_err, State.resetErr]⟩
    · cases h; exact ⟨rfl, by simp⟩
  · cases h; exact ⟨rfl, by simp⟩

theorem writeFc_frames {fc fc' : SFc} {id rem : Nat} {w : Wrote} (h : writeFc fc id rem = .ok (fc', w)) :
    ∀ f ∈ w.frames, f.resetErr = none := by
  unfold writeFc at h
  split at h
  · cases h; simp
  · split at h
    · cases h
    · split at h <;> cases h <;> simp [Frame.resetErr]

theorem writeBlocked_resetErr {s s' : Stream} {p : Prio} {rem : Nat} {w : Wrote}
    (h : s.writeBlocked p rem = .ok (s', w)) :
    s'.state.resetErr = s.state.resetErr ∧ ∀ f ∈ w.frames, f.resetErr = none := by
  unfold Stream.writeBlocked at h
  split at h
  · split at h
    · rename_i hst
      split at h
      · cases h
      · rename_i hw
        cases h; rw [hst]; exact ⟨rfl, writeFc_frames hw⟩
    · rename_i hst
      split at h
      · cases h
      · rename_i hw
        cases h; rw [hst]; exact ⟨rfl, writeFc_frames hw⟩
    · cases h; exact ⟨rfl, by simp⟩
  · cases h; exact ⟨rfl, by simp⟩

theorem writeFrames_resetErr {s s' : Stream} {conn conn' : SFc} {p : Prio} {rem split : Nat} {w : Wrote}
    (h : s.writeFrames conn p rem split = .ok (s', conn', w)) :
    s'.state.resetErr = s.state.resetErr ∧ ∀ f ∈ w.frames, ∀ e, f.resetErr = some e → s.state.resetErr = some e := by
  unfold Stream.writeFrames at h
  split at h
  · cases h
  · rename_i hr
    cases h
    obtain ⟨a, b⟩ := writeReset_resetErr hr
    exact ⟨a, fun f hf e he => by rw [← b f hf]; exact he⟩
  · rename_i s1 w1 hr
    obtain ⟨a, b⟩ := writeReset_resetErr hr
    split at h
    · cases h
    · rename_i s2 w2 hb
      obtain ⟨c, d⟩ := writeBlocked_resetErr hb
      split at h
      · cases h
        refine ⟨c.trans a, fun f hf e he => ?_⟩
        rcases List.mem_append.mp hf with hf | hf
        · rw [← b f hf]; exact he
        · rw [d f hf] at he; cases he
      · split at h
        · cases h
        · rename_i s3 c3 w3 hw
          obtain ⟨x, y⟩ := writeStream_resetErr hw
          cases h
          refine ⟨x.trans (c.trans a), fun f hf e he => ?_⟩
          rcases List.mem_append.mp hf with hf | hf
          · rcases List.mem_append.mp hf with hf | hf
            · rw [← b f hf]; exact he
            · rw [d f hf] at he; cases he
          · rw [y f hf] at he; cases he

/-- A stream is reset with one error code; a reset in progress never changes its code. -/
structure OneErr (h : Hist) : Prop where
  one : ∃ E, (∀ f ∈ h.r.frames, ∀ e, f.resetErr = some e → e = E) ∧ ∀ e, h.s.state.resetErr = some e → e = E

theorem maybeWritable_st {s s' : Stream} {conn : SFc} {p c : Nat} (h : s.maybeWritable conn p c = .ok s') :
    s'.state = s.state := by
  unfold Stream.maybeWritable at h
  split at h
  · cases h
  · split at h <;> cases h <;> rfl

theorem sendInternal_resetErr {s s' : Stream} {conn conn' : SFc} {d : Bytes} {a : Bool} {r : SendRes}
    (h : s.sendInternal conn d a = .ok (s', conn', r)) : s'.state.resetErr = s.state.resetErr := by
  have ht : s.toSend.state.resetErr = s.state.resetErr := by
    unfold Stream.toSend
    split <;> simp_all [State.resetErr]
  have ha : ∀ {x x' : Stream} {c c' : SFc} {d : Bytes} {r : SendRes}, x.accept c d = .ok (x', c', r) →
      x'.state.resetErr = x.state.resetErr := by
    intro x x' c c' d r h
    unfold Stream.accept at h
    split at h
    · rename_i hst
      split at h
      · cases h
      · split at h
        · cases h
        · split at h
          · cases h
          · cases h; rw [hst]; rfl
    · cases h; rfl
  rw [← ht]
  unfold Stream.sendInternal at h
  simp only at h
  split at h
  · cases h; exact ht.symm
  split at h
  · split at h
    · cases h
    · split at h
      · cases h; rfl
      · split at h
        · split at h
          · cases h; exact blockedIfNeeded_resetErr _ _ _
          · exact ha h
        · exact ha h
  · cases h; rfl

theorem setMax_resetErr {s s' : Stream} {conn : SFc} {l : Nat} (h : s.setMaxStreamData conn l = .ok s') :
    s'.state.resetErr = s.state.resetErr := by
  unfold Stream.setMaxStreamData at h
  simp only at h
  split at h
  · rename_i hst
    split at h
    · rw [maybeWritable_st h, hst]; rfl
    · cases h; rw [hst]; rfl
  · rename_i hst
    split at h
    · rw [maybeWritable_st h, hst]; rfl
    · cases h; rw [hst]; rfl
  · cases h; rfl

/-- The code of a reset in progress comes from before, or the stream was not being reset. -/
theorem resetErr_step {h h' : Hist} (hi : HInv h) {conn conn' : SFc} {op : Op} {out : Out}
    (hs : h.step conn op = .ok (h', conn', out)) {e : Nat} (he : h'.s.state.resetErr = some e) :
    h.s.state.resetErr = some e ∨ h.r.resetCalled = false := by
  have hst := hi.st
  have hreset : ∀ s : Stream, s.state.resetErr = h.s.state.resetErr ∨ s.state.resetErr = none →
      (∀ fc, s.state = .ready fc → ∃ fc, h.s.state = .ready fc) →
      (∀ fc tx c, s.state = .send fc tx c → ∃ fc tx c, h.s.state = .send fc tx c) →
      (∀ tx a b c, s.state = .dataSent tx a b c → ∃ tx a b c, h.s.state = .dataSent tx a b c) → ∀ x,
      (s.reset x).state.resetErr = some e → h.s.state.resetErr = some e ∨ h.r.resetCalled = false := by
    intro s h0 h1 h2 h3 x hx
    unfold Stream.reset at hx
    split at hx
    · rename_i hh; obtain ⟨_, hh⟩ := h1 _ hh; rw [hh] at hst; exact .inr hst.2.2.2.1
    · rename_i hh; obtain ⟨_, _, _, hh⟩ := h2 _ _ _ hh; rw [hh] at hst; exact .inr hst.2.1
    · rename_i hh; obtain ⟨_, _, _, _, hh⟩ := h3 _ _ _ _ hh; rw [hh] at hst; exact .inr hst.2.1
    · rcases h0 with h0 | h0
      · exact .inl (h0 ▸ hx)
      · rw [h0] at hx; cases hx
  cases op with
  | write data atomic =>
    simp only [Hist.step, Except.bind_eq_ok] at hs
    obtain ⟨⟨s', c', res⟩, e1, e2⟩ := hs
    have := sendInternal_resetErr e1
    cases res <;> cases e2 <;> exact .inl (this ▸ he)
  | close =>
    cases hs
    left; rw [← he]
    unfold Stream.close
    split <;> simp_all [State.resetErr]
  | commit =>
    have : h.s.commit.1.state.resetErr = h.s.state.resetErr := by
      unfold Stream.commit
      split <;> simp_all [State.resetErr]
    simp only [Hist.step] at hs
    split at hs <;> rename_i hc <;> cases hs <;> rw [hc] at this <;> exact .inl (this ▸ he)
  | reset err => cases hs; exact hreset h.s (.inl rfl) (fun fc h => ⟨fc, h⟩) (fun a b c h => ⟨a, b, c, h⟩) (fun a b c d h => ⟨a, b, c, d, h⟩) err he
  | stopSending err =>
    cases hs
    refine hreset h.s.dropCommitment ?_ ?_ ?_ ?_ err he
    · unfold Stream.dropCommitment
      split
      · rename_i hh; rw [hh]; exact .inl rfl
      · rename_i hh; rw [hh]; exact .inl rfl
      · rename_i hh
        split
        · exact .inr rfl
        · rw [hh]; exact .inl rfl
      · exact .inl rfl
    · intro fc
      unfold Stream.dropCommitment
      split
      · simp
      · simp
      · split <;> simp
      · exact fun h => ⟨_, h⟩
    · intro fc tx c
      unfold Stream.dropCommitment
      split
      · rename_i hh; exact fun _ => ⟨_, _, _, hh⟩
      · simp
      · split <;> simp
      · exact fun h => ⟨_, _, _, h⟩
    · intro tx a b c
      unfold Stream.dropCommitment
      split
      · simp
      · rename_i hh; exact fun _ => ⟨_, _, _, _, hh⟩
      · split <;> simp
      · exact fun h => ⟨_, _, _, _, h⟩
  | setPriority p e => cases hs; exact .inl he
  | setWatermark w => cases hs; exact .inl he
  | maxStreamData l =>
    simp only [Hist.step, Except.bind_eq_ok] at hs
    obtain ⟨s', e1, e⟩ := hs
    cases e
    exact .inl ((setMax_resetErr e1) ▸ he)
  | frames p rem split =>
    obtain ⟨w, _, e1, _⟩ := step_frames hs
    exact .inl ((writeFrames_resetErr e1).1 ▸ he)
  | acked k =>
    simp only [Hist.step] at hs
    split at hs
    · cases hs; exact .inl he
    · simp only [Except.bind_eq_ok] at hs
      obtain ⟨s', e1, e⟩ := hs
      cases e
      unfold Stream.markAcked at e1
      split at e1
      · rename_i hh; rw [hh] at hst; exact .inr hst.2.1
      · rename_i hh; rw [hh] at hst; exact .inr hst.2.1
      · rename_i hh
        rw [hh]
        split at e1
        · cases e1
        · split at e1
          · split at e1 <;> cases e1
            · cases he
            · exact .inl he
          · cases e1; exact .inl he
      · cases e1; exact .inl he
  | lost k =>
    simp only [Hist.step] at hs
    split at hs
    · cases hs; exact .inl he
    · simp only [Except.bind_eq_ok] at hs
      obtain ⟨s', e1, e⟩ := hs
      cases e
      unfold Stream.markLost at e1
      split at e1
      · cases e1
      · rename_i st hx
        cases e1
        have h1 : ∀ (st : State) (f : Bool), (st.finLost f).resetErr = st.resetErr := by
          intro st f
          unfold State.finLost
          split <;> rfl
        simp only [h1] at he
        exact .inl (onTx_resetErr hx ▸ he)
  | resetAcked =>
    simp only [Hist.step] at hs
    split at hs
    · cases hs
      unfold Stream.resetAcked at he
      split at he
      · cases he
      · rename_i hh
        split at he
        · cases he
        · rw [hh]; exact .inl he
      · exact .inl he
    · cases hs; exact .inl he
  | resetLost =>
    simp only [Hist.step] at hs
    split at hs
    · simp only [Except.bind_eq_ok] at hs
      obtain ⟨s', e1, e⟩ := hs
      cases e
      unfold Stream.resetLost at e1
      split at e1
      · rename_i hh; cases e1; rw [hh]; exact .inl he
      · rename_i hh; cases e1; rw [hh]; exact .inl he
      · cases e1; exact .inl he
      · cases e1
    · cases hs; exact .inl he
  | blockedLost l =>
    cases hs
    left; rw [← he]
    unfold Stream.blockedLost
    split <;> simp_all [State.resetErr]
  | connRaised p c =>
    simp only [Hist.step, Except.bind_eq_ok] at hs
    obtain ⟨s', e1, e⟩ := hs
    cases e
    have := maybeWritable_st e1
    exact .inl (by rw [← this]; exact he)

theorem frames_same {h h' : Hist} {conn conn' : SFc} {op : Op} {out : Out}
    (hs : h.step conn op = .ok (h', conn', out)) (hf : ∀ p rem split, op ≠ .frames p rem split) : h'.r.frames = h.r.frames := by
  cases op with
  | frames p rem split => exact absurd rfl (hf _ _ _)
  | write data atomic =>
    simp only [Hist.step, Except.bind_eq_ok] at hs
    obtain ⟨⟨s', c', res⟩, e1, e2⟩ := hs
    cases res <;> cases e2 <;> rfl
  | commit =>
    simp only [Hist.step] at hs
    split at hs <;> cases hs <;> rfl
  | maxStreamData l =>
    simp only [Hist.step, Except.bind_eq_ok] at hs
    obtain ⟨_, _, e⟩ := hs
    cases e; rfl
  | acked k =>
    simp only [Hist.step] at hs
    split at hs
    · cases hs; rfl
    · simp only [Except.bind_eq_ok] at hs
      obtain ⟨_, _, e⟩ := hs
      cases e; rfl
  | lost k =>
    simp only [Hist.step] at hs
    split at hs
    · cases hs; rfl
    · simp only [Except.bind_eq_ok] at hs
      obtain ⟨_, _, e⟩ := hs
      cases e; rfl
  | resetAcked =>
    simp only [Hist.step] at hs
    split at hs <;> cases hs <;> rfl
  | resetLost =>
    simp only [Hist.step] at hs
    split at hs
    · simp only [Except.bind_eq_ok] at hs
      obtain ⟨_, _, e⟩ := hs
      cases e; rfl
    · cases hs; rfl
  | connRaised p c =>
    simp only [Hist.step, Except.bind_eq_ok] at hs
    obtain ⟨_, _, e⟩ := hs
    cases e; rfl
  | _ => cases hs; rfl

theorem oneErr_new (id m : Nat) (conn : SFc) : OneErr (Hist.new id m conn) := by
  refine ⟨⟨0, by simp [Hist.new], ?_⟩⟩
  unfold Hist.new Stream.new
  simp only
  split <;> simp [State.resetErr]

theorem oneErr_step {h h' : Hist} (hi : HInv h) (ho : OneErr h) {conn conn' : SFc} {op : Op} {out : Out}
    (hs : h.step conn op = .ok (h', conn', out)) : OneErr h' := by
  obtain ⟨E, o1, o2⟩ := ho.one
  have hfr : ∀ f ∈ h'.r.frames, f ∈ h.r.frames ∨ ∀ e, f.resetErr = some e → h.s.state.resetErr = some e := by
    by_cases hf : ∃ p rem split, op = .frames p rem split
    · obtain ⟨p, rem, split, rfl⟩ := hf
      obtain ⟨w, _, e1, e2⟩ := step_frames hs
      rw [e2]
      intro f hf
      rcases List.mem_append.mp hf with hf | hf
      · exact .inl hf
      · exact .inr ((writeFrames_resetErr e1).2 f hf)
    · have : h'.r.frames = h.r.frames := frames_same hs (fun p r s h => hf ⟨p, r, s, h⟩)
      rw [this]
      exact fun f hf => .inl hf
  by_cases hrc : h.r.resetCalled = true
  · refine ⟨⟨E, fun f hf e he => ?_, fun e he => ?_⟩⟩
    · rcases hfr f hf with hf | hf
      · exact o1 f hf e he
      · exact o2 e (hf e he)
    · rcases resetErr_step hi hs he with h1 | h1
      · exact o2 e h1
      · rw [hrc] at h1; cases h1
  · -- no reset frames so far, and none now
    have hnone : h.s.state.resetErr = none := by
      have hst := hi.st
      cases hs : h.s.state with
      | resetSent _ _ _ _ _ _ => rw [hs] at hst; exact absurd hst.1 hrc
      | resetReliable _ _ _ _ _ _ => rw [hs] at hst; exact absurd hst.1 hrc
      | _ => rfl
    have hno : ∀ f ∈ h'.r.frames, ∀ e, f.resetErr = some e → False := by
      intro f hf e he
      rcases hfr f hf with hf | hf
      · cases f with
        | reset a b => exact hrc (hi.rcd.reset _ _ hf).1
        | resetAt a b c => exact hrc (hi.rcd.resetAt _ _ _ hf).1
        | stream a b c d => cases he
        | blocked a => cases he
      · rw [hnone] at hf; exact absurd (hf e he) (by simp)
    exact ⟨⟨(h'.s.state.resetErr).getD 0, fun f hf e he => (hno f hf e he).elim, fun e he => by simp [he]⟩⟩

/-- RESET_STREAM_AT never promises more than the final size. -/
def RelOk (h : Hist) : Prop := ∀ e f x, Frame.resetAt e f x ∈ h.r.frames → x ≤ f

theorem relOk_step {h h' : Hist} (hr : Reached h) (ho : RelOk h) {conn conn' : SFc} {op : Op} {out : Out}
    (hs : h.step conn op = .ok (h', conn', out)) : RelOk h' := by
  intro e f x hf
  by_cases hfo : ∃ p rem split, op = .frames p rem split
  · obtain ⟨p, rem, split, rfl⟩ := hfo
    obtain ⟨w, _, e1, e2⟩ := step_frames hs
    rw [e2] at hf
    rcases List.mem_append.mp hf with hf | hf
    · exact ho e f x hf
    · exact ((writeFrames_spec (reached_inv hr) e1).resetAt e f x hf).2.2.2
  · obtain ⟨fs, h1⟩ := (grow_step hs).frames
    rw [show h'.r.frames = h.r.frames from frames_same hs (fun p r s h => hfo ⟨p, r, s, h⟩)] at hf
    exact ho e f x hf

end Neqo.Send
