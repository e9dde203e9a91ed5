import Verif.SendStream.StatsProps

/-! # Send streams and the connection's flow control: lemmas -/
namespace Neqo.Send
open Neqo.Codec (Bytes maxVarint)
open Neqo.Flow (SFc)

theorem blocked_keeps (fc : SFc) : fc.blocked.limit = fc.limit ∧ fc.blocked.used = fc.used := by
  unfold SFc.blocked
  repeat' split
  all_goals exact ⟨rfl, rfl⟩

theorem blockedIf_keeps (fc : SFc) (n : Nat) : (blockedIf fc n).limit = fc.limit ∧ (blockedIf fc n).used = fc.used := by
  unfold blockedIf
  split
  · exact blocked_keeps fc
  · exact ⟨rfl, rfl⟩

theorem blockedIfNeeded_conn (s : Stream) (conn : SFc) (n : Nat) :
    (s.blockedIfNeeded conn n).2.limit = conn.limit ∧ (s.blockedIfNeeded conn n).2.used = conn.used := by
  unfold Stream.blockedIfNeeded
  split
  · exact blockedIf_keeps _ _
  · exact blockedIf_keeps _ _
  · exact ⟨rfl, rfl⟩

theorem writeFrames_conn {s s' : Stream} {conn conn' : SFc} {p : Prio} {rem split : Nat} {w : Wrote}
    (h : s.writeFrames conn p rem split = .ok (s', conn', w)) : conn'.limit = conn.limit ∧ conn'.used = conn.used := by
  unfold Stream.writeFrames at h
  split at h
  · cases h
  · cases h; exact ⟨rfl, rfl⟩
  · split at h
    · cases h
    · split at h
      · cases h; exact ⟨rfl, rfl⟩
      · split at h
        · cases h
        · rename_i h3
          cases h
          unfold Stream.writeStream at h3
          split at h3
          · cases h3; exact ⟨rfl, rfl⟩
          · split at h3
            · cases h3
            · cases h3; exact ⟨rfl, rfl⟩
            · unfold Stream.writeData at h3
              split at h3
              · cases h3
              · split at h3
                · cases h3; exact ⟨rfl, rfl⟩
                · split at h3
                  · cases h3
                  · simp only at h3
                    split at h3
                    · cases h3; exact ⟨rfl, rfl⟩
                    · split at h3
                      · cases h3
                      · split at h3
                        · cases h3
                        · rename_i h4
                          cases h3
                          unfold Stream.markSent at h4
                          split at h4
                          · cases h4
                          · cases h4
                            exact blockedIfNeeded_conn _ _ _

/-- One operation uses exactly as much connection credit as it accepts bytes. -/
theorem step_conn {h h' : Hist} (hi : HInv h) {conn conn' : SFc} {op : Op} {out : Out}
    (hs : h.step conn op = .ok (h', conn', out)) :
    conn'.limit = conn.limit ∧ conn'.used + h.r.written.length = conn.used + h'.r.written.length ∧
    (conn.used ≤ conn.limit → conn'.used ≤ conn'.limit) := by
  cases op with
  | write data atomic =>
    obtain ⟨s1, c1, r1, e0, e1, e2, e3⟩ := sendInternal_ok hi conn data atomic
    simp only [Hist.step, e0] at hs
    cases r1 with
    | wrote n =>
      cases hs
      obtain ⟨g1, _, g3, g4⟩ := e2 n rfl
      refine ⟨e1, ?_, fun hle => ?_⟩
      · simp only [List.length_append, List.length_take]; omega
      · rcases Nat.eq_zero_or_pos n with h0 | h0
        · show c1.used ≤ c1.limit; omega
        · have := g4 h0; show c1.used ≤ c1.limit; omega
    | err e =>
      cases hs
      have := (e3 e rfl).2
      exact ⟨e1, by simp only; omega, fun _ => by show c1.used ≤ c1.limit; omega⟩
  | frames p rem split =>
    obtain ⟨w, _, e1, e⟩ := step_frames hs
    obtain ⟨g1, g2⟩ := writeFrames_conn e1
    rw [e]
    exact ⟨g1, by rw [sent_written]; omega, fun _ => by omega⟩
  | close => cases hs; exact ⟨rfl, rfl, id⟩
  | commit =>
    simp only [Hist.step] at hs
    split at hs <;> cases hs <;> exact ⟨rfl, rfl, id⟩
  | reset err => cases hs; exact ⟨rfl, rfl, id⟩
  | stopSending err => cases hs; exact ⟨rfl, rfl, id⟩
  | setPriority p e => cases hs; exact ⟨rfl, rfl, id⟩
  | setWatermark w => cases hs; exact ⟨rfl, rfl, id⟩
  | maxStreamData l =>
    simp only [Hist.step, Except.bind_eq_ok] at hs
    obtain ⟨_, _, e⟩ := hs
    cases e; exact ⟨rfl, rfl, id⟩
  | acked k =>
    simp only [Hist.step] at hs
    split at hs
    · cases hs; exact ⟨rfl, rfl, id⟩
    · simp only [Except.bind_eq_ok] at hs
      obtain ⟨_, _, e⟩ := hs
      cases e; exact ⟨rfl, rfl, id⟩
  | lost k =>
    simp only [Hist.step] at hs
    split at hs
    · cases hs; exact ⟨rfl, rfl, id⟩
    · simp only [Except.bind_eq_ok] at hs
      obtain ⟨_, _, e⟩ := hs
      cases e; exact ⟨rfl, rfl, id⟩
  | resetAcked =>
    simp only [Hist.step] at hs
    split at hs <;> cases hs <;> exact ⟨rfl, rfl, id⟩
  | resetLost =>
    simp only [Hist.step] at hs
    split at hs
    · simp only [Except.bind_eq_ok] at hs
      obtain ⟨_, _, e⟩ := hs
      cases e; exact ⟨rfl, rfl, id⟩
    · cases hs; exact ⟨rfl, rfl, id⟩
  | blockedLost l => cases hs; exact ⟨rfl, rfl, id⟩
  | connRaised p c =>
    simp only [Hist.step, Except.bind_eq_ok] at hs
    obtain ⟨_, _, e⟩ := hs
    cases e; exact ⟨rfl, rfl, id⟩

/-! ## The connection -/

/-- Total accepted from the application. -/
def total (hs : List Hist) : Nat := (hs.map (fun h => h.r.written.length)).sum

structure CInv (c : Conn) : Prop where
  each : ∀ h ∈ c.streams, HInv h
  limit : c.fc.limit = c.limit
  used : c.fc.used = total c.streams
  le : c.fc.used ≤ c.limit

theorem total_set {hs : List Hist} {k : Nat} {h h' : Hist} (hk : hs[k]? = some h) :
    total (hs.set k h') + h.r.written.length = total hs + h'.r.written.length := by
  unfold total
  induction hs generalizing k with
  | nil => simp at hk
  | cons a hs ih =>
    cases k with
    | zero =>
      simp only [List.getElem?_cons_zero, Option.some.injEq] at hk
      subst hk
      simp only [List.set_cons_zero, List.map_cons, List.sum_cons]; omega
    | succ k =>
      simp only [List.getElem?_cons_succ] at hk
      have := ih hk
      simp only [List.set_cons_succ, List.map_cons, List.sum_cons]; omega

theorem raiseAll_ok {hs : List Hist} (hi : ∀ h ∈ hs, HInv h) (fc : SFc) (p c : Nat) :
    ∃ hs', raiseAll fc p c hs = .ok hs' ∧ (∀ h ∈ hs', HInv h) ∧ total hs' = total hs := by
  induction hs with
  | nil => exact ⟨[], rfl, (fun h hh => by cases hh), rfl⟩
  | cons h hs ih =>
    obtain ⟨hs', e1, e2, e3⟩ := ih (fun x hx => hi x (by simp [hx]))
    obtain ⟨s', g1, g2, _⟩ := maybeWritable_ok (hi h (by simp)) fc p c
    refine ⟨⟨s', h.r⟩ :: hs', ?_, ?_, ?_⟩
    · simp only [raiseAll, Hist.step, g1, e1]; rfl
    · intro x hx
      rcases List.mem_cons.mp hx with rfl | hx
      · exact g2
      · exact e2 x hx
    · unfold total at e3 ⊢
      simp only [List.map_cons, List.sum_cons, e3]

/-- Values that come from varints are below `2^62`. -/
def COp.Valid : COp → Prop
  | .opens id m => id ≤ maxVarint ∧ m ≤ maxVarint
  | .stream _ op => op.Valid
  | _ => True

theorem update_keeps (fc : SFc) (l : Nat) : (fc.update l).1.limit = max fc.limit l ∧ (fc.update l).1.used = fc.used := by
  unfold SFc.update
  split
  · exact ⟨by simp only; omega, rfl⟩
  · exact ⟨by simp only; omega, rfl⟩

theorem cstep_ok {c : Conn} (hi : CInv c) {op : COp} (hv : op.Valid) : ∃ c', c.step op = .ok c' ∧ CInv c' := by
  cases op with
  | opens id m =>
    refine ⟨_, rfl, fun h hh => ?_, hi.limit, ?_, hi.le⟩
    · rcases List.mem_append.mp hh with hh | hh
      · exact hi.each h hh
      · rcases List.mem_singleton.mp hh with rfl
        exact hinv_new hv.1 hv.2 _
    · rw [hi.used]; simp [total, Hist.new]
  | stream k op =>
    simp only [Conn.step]
    cases hk : c.streams[k]? with
    | none => exact ⟨_, rfl, hi⟩
    | some h =>
      have hh := hi.each h (List.mem_of_getElem? hk)
      obtain ⟨h', fc', out, e1, e2⟩ := hist_step_ok hh c.fc (op := op) hv
      obtain ⟨g1, g2, g3⟩ := step_conn hh e1
      simp only [e1]
      refine ⟨_, rfl, fun x hx => ?_, g1.trans hi.limit, ?_, ?_⟩
      · rcases List.mem_or_eq_of_mem_set hx with hx | rfl
        · exact hi.each x hx
        · exact e2
      · have := total_set (h' := h') hk
        have := hi.used
        simp only; omega
      · have h1 := hi.le
        have h2 := hi.limit
        have := g3 (by omega)
        simp only; omega
  | maxData l =>
    simp only [Conn.step]
    obtain ⟨k1, k2⟩ := update_keeps c.fc l
    have h1 := hi.limit
    have h2 := hi.used
    have h3 := hi.le
    cases hu : c.fc.update l with
    | mk fc' o =>
      rw [hu] at k1 k2
      cases o with
      | none =>
        refine ⟨_, rfl, hi.each, ?_, hi.used, ?_⟩
        · simp only
          unfold SFc.update at hu
          split at hu
          · cases hu
          · omega
        · simp only; omega
      | some cur =>
        obtain ⟨hs', e1, e2, e3⟩ := raiseAll_ok hi.each fc' c.fc.available cur
        simp only [e1]
        refine ⟨_, rfl, e2, ?_, ?_, ?_⟩
        · simp only at k1 ⊢; omega
        · simp only at k2 ⊢; omega
        · simp only at k2 ⊢; omega
  | initialMaxData l =>
    obtain ⟨k1, k2⟩ := update_keeps c.fc l
    have h1 := hi.limit
    have h2 := hi.used
    have h3 := hi.le
    exact ⟨_, rfl, hi.each, by simp only; omega, by simp only; omega, by simp only; omega⟩
  | write fits =>
    have h1 := hi.limit
    have h2 := hi.used
    have h3 := hi.le
    have : (c.fc.write fits).1.limit = c.fc.limit ∧ (c.fc.write fits).1.used = c.fc.used := by
      unfold SFc.write SFc.blockedSent
      repeat' split
      all_goals exact ⟨rfl, rfl⟩
    exact ⟨_, rfl, hi.each, by simp only; omega, by simp only; omega, by simp only; omega⟩
  | blockedLost l =>
    have h1 := hi.limit
    have h2 := hi.used
    have h3 := hi.le
    have : (c.fc.frameLost l).limit = c.fc.limit ∧ (c.fc.frameLost l).used = c.fc.used := by
      unfold SFc.frameLost
      repeat' split
      all_goals exact ⟨rfl, rfl⟩
    exact ⟨_, rfl, hi.each, by simp only; omega, by simp only; omega, by simp only; omega⟩

theorem cinv_new (m : Nat) : CInv (Conn.new m) := ⟨(fun _ h => by cases h), rfl, rfl, Nat.zero_le _⟩

theorem crun_ok {c : Conn} (hi : CInv c) {ops : List COp} (hv : ∀ op ∈ ops, op.Valid) : ∃ c', c.run ops = .ok c' ∧ CInv c' := by
  induction ops generalizing c with
  | nil => exact ⟨c, rfl, hi⟩
  | cons op ops ih =>
    obtain ⟨c1, e1, e2⟩ := cstep_ok hi (hv op (by simp))
    obtain ⟨c2, e3, e4⟩ := ih e2 (fun o ho => hv o (by simp [ho]))
    exact ⟨c2, by simp only [Conn.run, e1]; exact e3, e4⟩

/-! ## Available credit, from the record -/

/-- While the stream is open, the available room is determined by the record: limits, bytes
written, and the length `p` of the acknowledged prefix. -/
theorem avail_rec {h : Hist} (hi : HInv h) (conn : SFc) :
    (h.r.closed = false → h.r.resetCalled = false → ∃ p, p ≤ h.r.written.length ∧ (∀ i, i < p → h.r.Acked i) ∧ ¬ h.r.Acked p ∧
      h.s.avail conn = .ok (min (min (h.r.limit - h.r.written.length) conn.available) (txMax - (h.r.written.length - p)))) ∧
    (h.r.closed = true ∨ h.r.resetCalled = true → h.s.avail conn = .ok 0) := by
  have hst := hi.st
  obtain ⟨a, ha, h1, h2, h3⟩ := avail_ok hi conn
  constructor
  · intro hc hr
    cases hs : h.s.state with
    | ready fc =>
      have := h2 fc hs
      rw [hs] at hst
      obtain ⟨g1, g2, _, _, _, _, _, g8⟩ := hst
      refine ⟨0, Nat.zero_le _, fun i hil => absurd hil (Nat.not_lt_zero _), ready_unacked g2 0, ?_⟩
      rw [ha, this]
      have e1 := g8.used
      have e2 := g8.limit
      rw [g1] at e1 ⊢
      simp only [List.length_nil, Nat.sub_zero] at e1 ⊢
      unfold SFc.available
      rw [e1, e2]; simp
    | send fc tx c =>
      have := h1 fc tx c hs
      have hm := hst.marks (tx := tx) (by rw [hs]; rfl)
      rw [hs] at hst
      obtain ⟨_, _, _, _, _, g6, _⟩ := hst
      have hu : tx.retired + tx.buf.length = h.r.written.length := hm.ok.used
      refine ⟨tx.retired, by omega, fun i hil => hm.prefix_acked hil, hm.retired_not_acked, ?_⟩
      rw [ha, this]
      have e3 : h.r.written.length - tx.retired = tx.buf.length := by omega
      rw [e3]
      unfold SFc.available
      rw [g6.used, g6.limit]
    | dataSent _ _ _ _ => rw [hs] at hst; rw [hst.1] at hc; cases hc
    | dataRecvd _ _ => rw [hs] at hst; rw [hst.1] at hc; cases hc
    | resetSent _ _ _ _ _ _ => rw [hs] at hst; rw [hst.1] at hr; cases hr
    | resetReliable _ _ _ _ _ _ => rw [hs] at hst; rw [hst.1] at hr; cases hr
    | resetRecvd _ _ => rw [hs] at hst; rw [hst.1] at hr; cases hr
  · intro hc
    obtain ⟨n1, n2⟩ := open_state hi hc
    rw [ha, h3 n2 n1]

/-- More acknowledged, longer prefix. -/
theorem prefix_le {A B : Nat → Prop} {p q : Nat} (hp : ∀ i, i < p → A i) (hq : ¬ B q) (hab : ∀ i, A i → B i) : p ≤ q := by
  rcases Nat.lt_or_ge q p with h | h
  · exact absurd (hab _ (hp q h)) hq
  · exact h

theorem avail_le {h h' : Hist} (hi : HInv h) (hi' : HInv h') {conn conn' : SFc} {a a' : Nat}
    (ha : h.s.avail conn = .ok a) (ha' : h'.s.avail conn' = .ok a') (hl : h'.r.limit = h.r.limit)
    (hw : h.r.written.length ≤ h'.r.written.length) (hack : ∀ i, h'.r.Acked i → h.r.Acked i)
    (hcn : conn'.available ≤ conn.available)
    (ho : h'.r.closed = false → h'.r.resetCalled = false → h.r.closed = false ∧ h.r.resetCalled = false) : a' ≤ a := by
  cases hc : h'.r.closed with
  | true => rw [(avail_rec hi' conn').2 (.inl hc)] at ha'; cases ha'; exact Nat.zero_le _
  | false =>
    cases hr : h'.r.resetCalled with
    | true => rw [(avail_rec hi' conn').2 (.inr hr)] at ha'; cases ha'; exact Nat.zero_le _
    | false =>
      obtain ⟨hc0, hr0⟩ := ho hc hr
      obtain ⟨p', g1, g2, g3, g4⟩ := (avail_rec hi' conn').1 hc hr
      obtain ⟨p, k1, k2, k3, k4⟩ := (avail_rec hi conn).1 hc0 hr0
      rw [g4] at ha'; rw [k4] at ha
      cases ha; cases ha'
      have := prefix_le g2 k3 hack
      omega

/-- Operations that cannot give an application more room. -/
def Op.noRoom : Op → Bool
  | .acked _ => false
  | .maxStreamData _ => false
  | _ => true

theorem rec_noRoom {h h' : Hist} (hi : HInv h) {conn conn' : SFc} {op : Op} {out : Out} (hn : op.noRoom = true)
    (hs : h.step conn op = .ok (h', conn', out)) : h'.r.limit = h.r.limit ∧ ∀ i, h'.r.Acked i → h.r.Acked i := by
  cases op with
  | write data atomic =>
    simp only [Hist.step, Except.bind_eq_ok] at hs
    obtain ⟨⟨s', c', res⟩, e1, e2⟩ := hs
    cases res <;> cases e2 <;> exact ⟨rfl, fun i h => h⟩
  | close => cases hs; exact ⟨rfl, fun i h => h⟩
  | commit =>
    simp only [Hist.step] at hs
    split at hs <;> cases hs <;> exact ⟨rfl, fun i h => h⟩
  | reset err => cases hs; exact ⟨rfl, fun i h => h⟩
  | stopSending err => cases hs; exact ⟨rfl, fun i h => h⟩
  | setPriority p e => cases hs; exact ⟨rfl, fun i h => h⟩
  | setWatermark w => cases hs; exact ⟨rfl, fun i h => h⟩
  | maxStreamData l => cases hn
  | frames p rem split =>
    obtain ⟨w, _, _, e⟩ := step_frames hs
    rw [e]
    exact ⟨rfl, fun i h => (acked_sent hi.rcd _ i).mp h⟩
  | acked k => cases hn
  | lost k =>
    simp only [Hist.step] at hs
    split at hs
    · cases hs; exact ⟨rfl, fun i h => h⟩
    · simp only [Except.bind_eq_ok] at hs
      obtain ⟨_, _, e⟩ := hs
      cases e; exact ⟨rfl, fun i h => h⟩
  | resetAcked =>
    simp only [Hist.step] at hs
    split at hs <;> cases hs <;> exact ⟨rfl, fun i h => h⟩
  | resetLost =>
    simp only [Hist.step] at hs
    split at hs
    · simp only [Except.bind_eq_ok] at hs
      obtain ⟨_, _, e⟩ := hs
      cases e; exact ⟨rfl, fun i h => h⟩
    · cases hs; exact ⟨rfl, fun i h => h⟩
  | blockedLost l => cases hs; exact ⟨rfl, fun i h => h⟩
  | connRaised p c =>
    simp only [Hist.step, Except.bind_eq_ok] at hs
    obtain ⟨_, _, e⟩ := hs
    cases e; exact ⟨rfl, fun i h => h⟩

/-! ## When a writable event comes -/

theorem maybeWritable_emits {s s' : Stream} {conn : SFc} {p c a : Nat} (h : s.maybeWritable conn p c = .ok s')
    (ha : s'.avail conn = .ok a) (h1 : s.watermark ≤ a) (h2 : p ≤ s.watermark) (h3 : s.watermark ≤ c) :
    s'.events = s.events ++ [.writable] := by
  have hs : s.avail conn = .ok a := by
    unfold Stream.maybeWritable at h
    split at h
    · cases h
    · rename_i a0 ha0
      split at h <;> cases h
      · exact ha
      · rw [← ha]; rfl
  unfold Stream.maybeWritable at h
  rw [hs] at h
  simp only at h
  rw [if_neg (by omega)] at h
  cases h; rfl

theorem maybeWritable_state {s s' : Stream} {conn : SFc} {p c : Nat} (h : s.maybeWritable conn p c = .ok s') :
    s'.state = s.state := by
  unfold Stream.maybeWritable at h
  split at h
  · cases h
  · split at h <;> cases h <;> rfl

theorem avail_send {s : Stream} {fc : SFc} {tx : Tx} {c b : Nat} (hs : s.state = .send fc tx c) (hb : tx.avail = .ok b) (conn : SFc) :
    s.avail conn = .ok (min (min fc.available conn.available) b) := by
  unfold Stream.avail
  rw [hs]
  simp only [hb]

theorem avail_ready {s : Stream} {fc : SFc} (hs : s.state = .ready fc) (conn : SFc) :
    s.avail conn = .ok (min (min fc.available conn.available) txMax) := by
  unfold Stream.avail
  rw [hs]

theorem markAcked_emits {s s' : Stream} {conn : SFc} {o l : Nat} {f : Bool} (h : s.markAcked conn o l f = .ok s')
    {a a' : Nat} (ha : s.avail conn = .ok a) (ha' : s'.avail conn = .ok a') (h1 : a < s.watermark) (h2 : s.watermark ≤ a') :
    s'.events = s.events ++ [.writable] := by
  have hz : ∀ {st : State}, s'.state = st → (∀ fc, st ≠ .ready fc) → (∀ fc tx c, st ≠ .send fc tx c) → False := by
    intro st e n1 n2
    unfold Stream.avail at ha'
    rw [e] at ha'
    cases st with
    | ready fc => exact n1 fc rfl
    | send fc tx c => exact n2 fc tx c rfl
    | _ => cases ha'; omega
  unfold Stream.markAcked at h
  split at h
  · rename_i fc tx c hs
    split at h
    · cases h
    · rename_i prev hprev
      split at h
      · cases h
      · rename_i tx' htx'
        split at h
        · cases h
        · rename_i cur hcur
          have e := maybeWritable_state h
          rw [avail_send hs hprev conn] at ha
          have ha2 := avail_send (s := s') (by rw [e]) hcur conn
          rw [ha2] at ha'
          cases ha; cases ha'
          have := maybeWritable_emits h ha2 h2 (show _ ≤ s.watermark by omega) (show s.watermark ≤ _ by omega)
          exact this
  · split at h
    · cases h
    · simp only at h
      split at h <;> cases h <;> exact (hz rfl (by simp) (by simp)).elim
  · split at h
    · cases h
    · split at h
      · split at h <;> cases h <;> exact (hz rfl (by simp) (by simp)).elim
      · cases h; exact (hz rfl (by simp) (by simp)).elim
  · cases h
    rename_i h3 h4 h5
    cases hs : s.state with
    | ready fc => rw [ha] at ha'; cases ha'; omega
    | send fc tx c => exact absurd hs (h3 _ _ _)
    | dataSent a b c d => exact absurd hs (h4 _ _ _ _)
    | resetReliable a b c d e f => exact absurd hs (h5 _ _ _ _ _ _)
    | _ => exact (hz hs (by simp) (by simp)).elim

theorem update_some {fc fc' : SFc} {l cur : Nat} (h : fc.update l = (fc', some cur)) :
    cur = fc'.available ∧ fc.limit < fc'.limit ∧ fc'.used = fc.used := by
  unfold SFc.update at h
  split at h
  · cases h; exact ⟨rfl, by simp only; omega, rfl⟩
  · cases h

theorem update_none {fc fc' : SFc} {l : Nat} (h : fc.update l = (fc', none)) : fc' = fc := by
  unfold SFc.update at h
  split at h
  · cases h
  · cases h; rfl

theorem setMax_emits {s s' : Stream} {conn : SFc} {l : Nat} (h : s.setMaxStreamData conn l = .ok s')
    {a a' : Nat} (ha : s.avail conn = .ok a) (ha' : s'.avail conn = .ok a') (h1 : a < s.watermark) (h2 : s.watermark ≤ a') :
    s'.events = s.events ++ [.writable] := by
  unfold Stream.setMaxStreamData at h
  simp only at h
  split at h
  · rename_i fc hs
    cases hu : fc.update l with
    | mk fc' o =>
      rw [hu] at h
      cases o with
      | none =>
        cases h
        rw [update_none hu] at ha'
        rw [avail_ready hs conn] at ha
        rw [avail_ready (fc := fc) rfl conn] at ha'
        cases ha; cases ha'; omega
      | some cur =>
        simp only at h
        have e := maybeWritable_state h
        have ha2 := avail_ready (s := s') (fc := fc') (by rw [e]) conn
        rw [ha2] at ha'
        rw [avail_ready hs conn] at ha
        have := (update_some hu).1
        cases ha; cases ha'
        have := maybeWritable_emits h ha2 h2 (show _ ≤ s.watermark by omega) (show s.watermark ≤ _ by omega)
        exact this
  · rename_i fc tx c hs
    cases hb : tx.avail with
    | error e => unfold Stream.avail at ha; rw [hs] at ha; simp only [hb] at ha; cases ha
    | ok b =>
      cases hu : fc.update l with
      | mk fc' o =>
        rw [hu] at h
        cases o with
        | none =>
          cases h
          rw [update_none hu] at ha'
          rw [avail_send hs hb conn] at ha
          rw [avail_send (fc := fc) rfl hb conn] at ha'
          cases ha; cases ha'; omega
        | some cur =>
          simp only at h
          have e := maybeWritable_state h
          have ha2 := avail_send (s := s') (fc := fc') (by rw [e]) hb conn
          rw [ha2] at ha'
          rw [avail_send hs hb conn] at ha
          have := (update_some hu).1
          cases ha; cases ha'
          have := maybeWritable_emits h ha2 h2 (show _ ≤ s.watermark by omega) (show s.watermark ≤ _ by omega)
          exact this
  · cases h; rw [ha] at ha'; cases ha'; omega

/-- `avail` as the smaller of the stream's own room and the connection's credit. -/
theorem avail_split {h : Hist} (hi : HInv h) : ∃ x, ∀ conn, h.s.avail conn = .ok (min x conn.available) := by
  unfold Stream.avail
  cases hs : h.s.state with
  | ready fc => exact ⟨min fc.available txMax, fun conn => by simp only; congr 1; omega⟩
  | send fc tx c =>
    have hm := hi.st.marks (tx := tx) (by rw [hs]; rfl)
    simp only [hm.ok.avail]
    exact ⟨min fc.available (txMax - tx.buf.length), fun conn => by congr 1; omega⟩
  | _ => exact ⟨0, fun conn => by simp⟩

theorem raised_emits {h : Hist} (hi : HInv h) {s' : Stream} {fc fc' : SFc} {cur : Nat} (hcur : cur = fc'.available)
    (h' : h.s.maybeWritable fc' fc.available cur = .ok s') {a a' : Nat} (ha : h.s.avail fc = .ok a) (ha' : s'.avail fc' = .ok a')
    (h1 : a < h.s.watermark) (h2 : h.s.watermark ≤ a') : s'.events = h.s.events ++ [.writable] := by
  obtain ⟨x, hx⟩ := avail_split hi
  have e : s'.avail fc' = .ok (min x fc'.available) := by
    rw [← hx fc']
    unfold Stream.avail
    rw [maybeWritable_state h']
  rw [hx fc] at ha
  have e' := e
  rw [ha'] at e
  cases ha; cases e
  exact maybeWritable_emits h' e' h2 (by omega) (by omega)

end Neqo.Send
