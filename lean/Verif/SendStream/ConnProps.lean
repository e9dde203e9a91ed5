import Verif.SendStream.ConnLemmas

/-!
# C13 (send limits) and C50 (writable events)

`CReached c`: some sequence of operations leads from a new connection to `c`.  `c.limit` is the
largest connection limit received, `h.r.limit` the largest limit received for that stream, and
`h.r.written` what was accepted from the application on it.
-/
namespace Neqo.Send
open Neqo.Codec (Bytes maxVarint)
open Neqo.Flow (SFc)

def CReached (c : Conn) : Prop := ∃ m ops, (∀ op ∈ ops, COp.Valid op) ∧ (Conn.new m).run ops = .ok c

theorem creached_inv {c : Conn} (h : CReached c) : CInv c := by
  obtain ⟨m, ops, h1, h2⟩ := h
  obtain ⟨c', e1, e2⟩ := crun_ok (cinv_new m) h1
  rw [h2] at e1; cases e1; exact e2

/-! ## C13 -/

/-- Bytes accepted on a stream stay within the largest limit received for it. -/
theorem C13_stream_within_limit {c : Conn} (hr : CReached c) {h : Hist} (hh : h ∈ c.streams) :
    h.r.written.length ≤ h.r.limit := ((creached_inv hr).each h hh).rcd.lim

/-- The sum over all streams stays within the largest connection limit received, and is exactly the
credit accounted for. -/
theorem C13_connection_within_limit {c : Conn} (hr : CReached c) :
    (c.streams.map (fun h => h.r.written.length)).sum ≤ c.limit ∧
    c.fc.used = (c.streams.map (fun h => h.r.written.length)).sum ∧ c.fc.limit = c.limit := by
  have hi := creached_inv hr
  have h1 := hi.used
  have h2 := hi.le
  unfold total at h1
  exact ⟨by omega, h1, hi.limit⟩

/-- A limit that is not larger than one received before changes nothing. -/
theorem C13_smaller_limit_ignored {c : Conn} (hr : CReached c) {l : Nat} (hl : l ≤ c.limit) :
    c.step (.maxData l) = .ok c ∧ c.step (.initialMaxData l) = .ok c := by
  have hi := creached_inv hr
  have h1 := hi.limit
  have hu : c.fc.update l = (c.fc, none) := by
    unfold SFc.update
    rw [if_neg (by omega)]
  have hm : max c.limit l = c.limit := by omega
  simp only [Conn.step, hu, hm]
  exact ⟨trivial, trivial⟩

/-- The same for a stream. -/
theorem C13_smaller_stream_limit_ignored {c : Conn} (hr : CReached c) {h : Hist} (hh : h ∈ c.streams) {l : Nat}
    (hl : l ≤ h.r.limit) : h.step c.fc (.maxStreamData l) = .ok (h, c.fc, .nothing) := by
  have hi := (creached_inv hr).each h hh
  have hm : max h.r.limit l = h.r.limit := by omega
  have hst := hi.st
  have hs' : h.s.setMaxStreamData c.fc l = .ok h.s := by
    unfold Stream.setMaxStreamData
    have hu : ∀ fc : SFc, fc.limit = h.r.limit → fc.update l = (fc, none) := by
      intro fc hfc
      unfold SFc.update
      rw [if_neg (by omega)]
    cases hs : h.s.state with
    | ready fc =>
      rw [hs] at hst
      simp only [hu fc hst.2.2.2.2.2.2.2.limit]
      rw [← hs]
    | send fc tx cm =>
      rw [hs] at hst
      simp only [hu fc hst.2.2.2.2.2.1.limit]
      rw [← hs]
    | _ => rfl
  simp only [Hist.step, hs', hm]
  rfl

/-- What a write accepts: exactly as much as the stream's limit, the connection's limit and the
buffer allow, unless the write is atomic and does not fit. -/
theorem C13_accepts_exactly {c : Conn} (hr : CReached c) {h h' : Hist} (hh : h ∈ c.streams) {data : Bytes} {atomic : Bool}
    {fc' : SFc} {n a : Nat} (hs : h.step c.fc (.write data atomic) = .ok (h', fc', .sent (.wrote n)))
    (ha : h.s.avail c.fc = .ok a) : n = if atomic ∧ a < data.length then 0 else min a data.length := by
  have hi := (creached_inv hr).each h hh
  simp only [Hist.step, Except.bind_eq_ok] at hs
  obtain ⟨⟨s', c', res⟩, e1, e2⟩ := hs
  have hres : res = .wrote n := by
    cases res <;> cases e2; rfl
  subst hres
  clear e2
  have hts : h.s.toSend.avail c.fc = .ok a := by
    rw [← ha]
    unfold Stream.toSend
    cases hx : h.s.state with
    | ready fc =>
      unfold Stream.avail
      simp only [hx, Tx.avail, List.length_nil, Nat.zero_le, if_true, Nat.sub_zero]
    | _ => rfl
  unfold Stream.sendInternal at e1
  split at e1
  · cases e1
  · simp only at e1
    split at e1
    · rename_i fc tx cm hst
      rw [hts] at e1
      simp only at e1
      have hacc : ∀ d : Bytes, d.length ≤ a → h.s.toSend.accept c.fc d = .ok (s', c', .wrote n) → n = d.length := by
        intro d hd hacc
        unfold Stream.accept at hacc
        rw [hst] at hacc
        simp only at hacc
        unfold Tx.send at hacc
        split at hacc
        · cases hacc
        · rename_i tx' m hsend
          split at hsend
          · cases hsend
          · rename_i b hb
            cases hsend
            have := avail_send hst hb c.fc
            rw [hts] at this
            cases this
            split at hacc
            · cases hacc
            · split at hacc
              · cases hacc
              · cases hacc; omega
      split at e1
      · rename_i h0
        cases e1
        split
        · rfl
        · omega
      · split at e1
        · rename_i hlt
          split at e1
          · rename_i hat
            cases e1
            rw [if_pos ⟨hat, hlt⟩]
          · rename_i hat
            have := hacc _ (by rw [List.length_take]; omega) e1
            rw [List.length_take] at this
            rw [if_neg (fun hx => hat hx.1)]
            exact this
        · rename_i hlt
          have := hacc _ (by omega) e1
          rw [if_neg (fun hx => hlt hx.2)]
          omega
    · cases e1

/-! ## C50: writable events -/

/-- `c.step op` changes neither the mark of stream `k` … -/
def COp.setsMark (op : COp) (k : Nat) : Prop := ∃ w, op = .stream k (.setWatermark w)

/-- Whenever the room on a stream rises from below its mark to the mark or above, the application is
told in the same step.  Missing from the full property: the limit in the peer's transport
parameters (see `C50_initial_limit_silent`). -/
theorem C50_writable_when_room_partial {c c' : Conn} (hr : CReached c) {op : COp} (hv : op.Valid) (hs : c.step op = .ok c')
    (hni : ∀ l, op ≠ .initialMaxData l) {k : Nat} (hnm : ¬ op.setsMark k) {h h' : Hist} (hk : c.streams[k]? = some h)
    (hk' : c'.streams[k]? = some h') {a a' : Nat} (ha : h.s.avail c.fc = .ok a) (ha' : h'.s.avail c'.fc = .ok a')
    (h1 : a < h.s.watermark) (h2 : h.s.watermark ≤ a') : h'.s.events = h.s.events ++ [.writable] := by
  have hi := creached_inv hr
  have hh := hi.each h (List.mem_of_getElem? hk)
  obtain ⟨x, hx⟩ := avail_split hh
  have same : ∀ {fc' : SFc}, h' = h → c'.fc = fc' → fc'.available ≤ c.fc.available → False := by
    intro fc' e1 e2 e3
    rw [e1, e2, hx] at ha'
    rw [hx] at ha
    cases ha; cases ha'; omega
  cases op with
  | opens id m =>
    cases hs
    simp only at hk'
    rw [List.getElem?_append_left (List.getElem?_eq_some_iff.mp hk).1, hk] at hk'
    cases hk'
    exact (same rfl rfl (Nat.le_refl _)).elim
  | stream j op =>
    simp only [Conn.step] at hs
    cases hj : c.streams[j]? with
    | none =>
      rw [hj] at hs; cases hs
      rw [hk] at hk'; cases hk'
      exact (same rfl rfl (Nat.le_refl _)).elim
    | some g =>
      rw [hj] at hs
      simp only [Except.bind_eq_ok] at hs
      obtain ⟨⟨g', fc', out⟩, e1, e2⟩ := hs
      cases e2
      have hg := hi.each g (List.mem_of_getElem? hj)
      obtain ⟨s1, s2, s3⟩ := step_conn hg e1
      obtain ⟨⟨y, hy⟩, _, _, m1, m2⟩ := rec_mono hg e1
      have hwl : g.r.written.length ≤ g'.r.written.length := by rw [hy, List.length_append]; omega
      have hcn : fc'.available ≤ c.fc.available := by unfold SFc.available; omega
      simp only at hk' ha'
      by_cases hjk : j = k
      · subst hjk
        rw [hk] at hj; cases hj
        rw [List.getElem?_set_self (List.getElem?_eq_some_iff.mp hk).1] at hk'
        cases hk'
        by_cases hnr : op.noRoom = true
        · obtain ⟨q1, q2⟩ := rec_noRoom hg hnr e1
          obtain ⟨g2, c2, o2, e3, e4⟩ := hist_step_ok hh c.fc (op := op) hv
          rw [e1] at e3; cases e3
          have := avail_le hg e4 ha ha' q1 hwl q2 hcn (fun a b => ⟨m2 a, m1 b⟩)
          omega
        · cases op with
          | acked n =>
            simp only [Hist.step] at e1
            split at e1
            · cases e1; rw [ha] at ha'; cases ha'; omega
            · simp only [Except.bind_eq_ok] at e1
              obtain ⟨_, e2, e⟩ := e1
              cases e
              exact markAcked_emits e2 ha ha' h1 h2
          | maxStreamData l =>
            simp only [Hist.step, Except.bind_eq_ok] at e1
            obtain ⟨_, e2, e⟩ := e1
            cases e
            exact setMax_emits e2 ha ha' h1 h2
          | _ => exact absurd rfl hnr
      · rw [List.getElem?_set_ne hjk, hk] at hk'
        cases hk'
        exact (same rfl rfl hcn).elim
  | maxData l =>
    simp only [Conn.step] at hs
    cases hu : c.fc.update l with
    | mk fc' o =>
      rw [hu] at hs
      cases o with
      | none =>
        cases hs
        rw [hk] at hk'; cases hk'
        exact (same rfl rfl (Nat.le_refl _)).elim
      | some cur =>
        simp only [Except.bind_eq_ok] at hs
        obtain ⟨hs', e1, e2⟩ := hs
        cases e2
        have key : ∀ (l : List Hist) (l' : List Hist) (k : Nat), raiseAll fc' c.fc.available cur l = .ok l' →
            l[k]? = some h → l'[k]? = some h' → ∃ s', h.s.maybeWritable fc' c.fc.available cur = .ok s' ∧ h' = ⟨s', h.r⟩ := by
          intro l
          induction l with
          | nil => intro l' k _ h1; simp at h1
          | cons b l ih =>
            intro l' k hl hk1 hk2
            simp only [raiseAll, Except.bind_eq_ok] at hl
            obtain ⟨⟨b', _, _⟩, f1, l2, f2, f3⟩ := hl
            cases f3
            cases k with
            | zero =>
              simp only [List.getElem?_cons_zero, Option.some.injEq] at hk1 hk2
              subst hk1 hk2
              simp only [Hist.step, Except.bind_eq_ok] at f1
              obtain ⟨s', f4, f5⟩ := f1
              cases f5
              exact ⟨s', f4, rfl⟩
            | succ k =>
              simp only [List.getElem?_cons_succ] at hk1 hk2
              exact ih l2 k f2 hk1 hk2
        obtain ⟨s', g1, g2⟩ := key _ _ _ e1 hk hk'
        subst g2
        exact raised_emits hh (update_some hu).1 g1 ha ha' h1 h2
  | initialMaxData l => exact absurd rfl (hni l)
  | write fits =>
    cases hs
    rw [hk] at hk'; cases hk'
    refine (same rfl rfl ?_).elim
    unfold SFc.write SFc.blockedSent SFc.available
    repeat' split
    all_goals exact Nat.le_refl _
  | blockedLost l =>
    cases hs
    rw [hk] at hk'; cases hk'
    refine (same rfl rfl ?_).elim
    unfold SFc.frameLost SFc.available
    repeat' split
    all_goals exact Nat.le_refl _

/-- The full property fails: a stream that ran out of the connection credit remembered for 0-RTT is
not told when the peer's transport parameters bring more (`set_initial_limits`, streams.rs:582-601,
raises the connection limit without looking at the streams). -/
theorem C50_initial_limit_silent : ∃ c c' h h', CReached c ∧ c.step (.initialMaxData 100) = .ok c' ∧
    c.streams[0]? = some h ∧ c'.streams[0]? = some h' ∧ h.s.avail c.fc = .ok 0 ∧ h'.s.avail c'.fc = .ok 90 ∧
    h'.s.events = h.s.events := by
  have hrun : ∃ c, (Conn.new 10).run [.opens 0 1000, .stream 0 (.write [1, 2, 3, 4, 5, 6, 7, 8, 9, 10] false)] = .ok c ∧
      ∃ c' h h', c.step (.initialMaxData 100) = .ok c' ∧
        c.streams[0]? = some h ∧ c'.streams[0]? = some h' ∧ h.s.avail c.fc = .ok 0 ∧ h'.s.avail c'.fc = .ok 90 ∧
        h'.s.events = h.s.events := ⟨_, rfl, _, _, _, rfl, rfl, rfl, rfl, rfl, rfl⟩
  obtain ⟨c, e1, c', h, h', e2⟩ := hrun
  exact ⟨c, c', h, h', ⟨10, _, by simp [COp.Valid, Op.Valid, maxVarint], e1⟩, e2⟩

/-- Two streams sharing ten bytes of connection credit: 6 + 4 are accepted, and MAX_DATA makes both
writable again. -/
example : ∃ c, (Conn.new 10).run [.opens 0 1000, .opens 4 7, .stream 0 (.write [1, 2, 3, 4, 5, 6] false),
      .stream 1 (.write [1, 2, 3, 4, 5] false), .maxData 8] = .ok c ∧
    c.streams.map (fun h => h.r.written.length) = [6, 4] ∧ c.limit = 10 ∧
    ∃ c', c.step (.maxData 12) = .ok c' ∧ c'.streams.map (fun h => h.s.events) = [[.writable, .writable], [.writable, .writable]] :=
  ⟨_, rfl, rfl, rfl, _, rfl, rfl⟩

end Neqo.Send
