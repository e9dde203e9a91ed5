import Verif.E2E.SysInv
import Verif.RecvStream.RxProps

/-!
# Properties of stream transfer between two endpoints (C94–C96)
-/
namespace Neqo.RecvS
open Neqo.Codec (Bytes)
open Neqo.Flow (RFc)

/-- How many separate pieces of a stream are waiting to be read. -/
def State.pieces : State → Nat
  | .recv _ buf | .sizeKnown _ buf | .dataRecvd _ buf | .sizeKnownAt _ buf _ _ _ => buf.ranges.length
  | _ => 0

theorem consumeData_pieces {st st' : State} {ses ses' : RFc} {c : Nat} {fin : Bool}
    (h : st.consumeData ses c fin = .ok (st', ses')) : st'.pieces = st.pieces := by
  cases st with
  | dataRead a b => cases h; rfl
  | resetRecvd a b => cases h; rfl
  | _ =>
    simp only [State.consumeData, Except.bind_eq_ok, Except.pure_eq_ok] at h
    obtain ⟨_, _, h⟩ := h
    cases h
    rfl

theorem deliver_pieces {st : State} {fin : Bool} {off : Nat} {d : Bytes} {e : Err} (h : st.deliver fin off d = .error e) :
    4096 ≤ st.pieces := by
  apply Classical.byContradiction
  intro hn
  have ha : ∀ (buf : Recv.Rx) x, buf.ranges.length < 4096 → ¬ buf.inboundFrame off x = .error e := by
    intro buf x hl he
    obtain ⟨s', hs⟩ := Recv.C07_accepts_below_limit hl off x
    rw [hs] at he; cases he
  cases st with
  | recv fc buf =>
    simp only [State.deliver, Except.bind_eq_error] at h
    rcases h with h | ⟨_, _, h⟩
    · exact ha buf _ (by simp only [State.pieces] at hn; omega) h
    · split at h
      · split at h <;> cases h
      · cases h
  | sizeKnown fc buf =>
    simp only [State.deliver, Except.bind_eq_error] at h
    rcases h with h | ⟨_, _, h⟩
    · exact ha buf _ (by simp only [State.pieces] at hn; omega) h
    · split at h <;> cases h
  | sizeKnownAt fc buf err fs rel =>
    simp only [State.deliver] at h
    split at h
    · simp only [Except.bind_eq_error] at h
      rcases h with h | ⟨_, _, h⟩
      · exact ha buf _ (by simp only [State.pieces] at hn; omega) h
      · cases h
    · cases h
  | _ => cases h

theorem frame_pieces {t : Tr} {ses : RFc} {off : Nat} {d : Bytes} {fin : Bool} (hf : Fit t ses)
    (h : t.step ses (.frame fin off d) = .error .protocolViolation) : 4096 ≤ t.st.pieces := by
  simp only [Tr.step, Except.bind_eq_error] at h
  rcases h with h | ⟨_, _, h⟩
  · simp only [State.inboundFrame, Except.bind_eq_error] at h
    rcases h with h | ⟨⟨st', ses'⟩, h1, h | ⟨_, _, h⟩⟩
    · rcases consumeData_error hf h with ⟨_, h⟩ | ⟨_, h, _⟩ <;> cases h
    · rw [← consumeData_pieces h1]; exact deliver_pieces h
    · cases h
  · cases h

end Neqo.RecvS

namespace Neqo.E2E
open Neqo.Codec (Bytes maxVarint)
open Neqo.Flow (SFc RFc)

/-! ## C94: what is read is what was written -/

theorem prefix_of_get {a b : Bytes} (h : ∀ (i : Nat) x, a[i]? = some x → b[i]? = some x) : a <+: b := by
  induction a generalizing b with
  | nil => exact List.nil_prefix
  | cons x a ih =>
    cases b with
    | nil => have := h 0 x rfl; simp at this
    | cons y b =>
      have h0 := h 0 x rfl
      simp only [List.getElem?_cons_zero, Option.some.injEq] at h0
      subst h0
      exact List.cons_prefix_cons.mpr ⟨rfl, ih fun i z hz => by have := h (i + 1) z (by simpa using hz); simpa using this⟩

theorem carried_written {m : Nat} {s : Sys} (hi : SInv m s) {k : Nat} {t : RecvS.Tr} (ht : s.rcv.streams[k]? = some t) {i : Nat}
    {b : UInt8} (hc : t.Carried i b) : (s.written k)[i]? = some b := by
  have hlt := (List.getElem?_eq_some_iff.mp ht).1
  have hl := hi.len
  have hk : s.snd.streams[k]? = some (s.snd.streams[k]'(by omega)) := List.getElem?_eq_getElem (by omega)
  generalize s.snd.streams[k]'(by omega) = h at hk
  obtain ⟨t', ar, e1, e2⟩ := hi.entry hk
  rw [ht] at e1; cases e1
  have hp := hi.pair k h t ar hk ht e2
  obtain ⟨off, d, h1, h2, h3⟩ := hc
  obtain ⟨fin, fill, h4⟩ := hp.frames off d h1
  have h5 := (Send.C17_frames_carry_written (hi.each k h hk).1 h4).2 (i - off) (List.getElem?_eq_some_iff.mp h3).1
  rw [h3, show off + (i - off) = i by omega] at h5
  unfold Sys.written
  rw [hk]
  exact h5.symm

/-- Whatever the network does, the bytes read from a stream are the first bytes that were written to
it, in order and without gaps, repetitions or changes. -/
theorem C94_read_is_prefix_of_written {s : Sys} (hr : Reached s) (k : Nat) : s.read k <+: s.written k := by
  obtain ⟨m, hm, hi⟩ := reached_inv hr
  apply prefix_of_get
  intro i b hb
  obtain ⟨t, ht, hc⟩ := RecvS.C05_stream_reads_carried_bytes hi.run k i b hb
  exact carried_written hi ht hc

theorem bytesOf_append (a b : List RecvS.Out) : RecvS.bytesOf (a ++ b) = RecvS.bytesOf a ++ RecvS.bytesOf b := by
  induction a with
  | nil => rfl
  | cons o a ih => cases o <;> simp [RecvS.bytesOf, ih]

theorem bytesOf_none {l : List RecvS.Out} (h : ∀ o ∈ l, o = .noMoreData) : RecvS.bytesOf l = [] := by
  induction l with
  | nil => rfl
  | cons o l ih =>
    have := h o (by simp)
    subst this
    exact ih fun o ho => h o (by simp [ho])

/-- When the reader is told that the stream is at its end, the writer has closed it and everything
that was written has been read. -/
theorem C94_fin_means_everything_read {s : Sys} (hr : Reached s) {k : Nat} (hf : s.sawFin k) :
    s.closed k = true ∧ s.read k = s.written k := by
  obtain ⟨m, hm, hi⟩ := reached_inv hr
  obtain ⟨b, hb⟩ := hf
  obtain ⟨pre, post, hsplit⟩ := List.append_of_mem hb
  obtain ⟨h1, t, ht, hne, hends⟩ := RecvS.C08_fin_is_end_and_last hi.run k hsplit
  obtain ⟨_, t', ht', hseen, _⟩ := RecvS.fin_run (RecvS.cok_new m) hi.run hsplit
  rw [ht] at ht'; cases ht'
  have hlt := (List.getElem?_eq_some_iff.mp ht).1
  have hl := hi.len
  have hk : s.snd.streams[k]? = some (s.snd.streams[k]'(by omega)) := List.getElem?_eq_getElem (by omega)
  generalize s.snd.streams[k]'(by omega) = h at hk
  obtain ⟨t', ar, e1, e2⟩ := hi.entry hk
  rw [ht] at e1; cases e1
  have hp := hi.pair k h t ar hk ht e2
  have hread : s.read k = RecvS.bytesOf (pre ++ [.data b true]) := by
    unfold Sys.read
    rw [hsplit, show pre ++ .data b true :: post = (pre ++ [.data b true]) ++ post by simp, bytesOf_append, bytesOf_none h1,
      List.append_nil]
  have hlen : (s.read k).length = (s.written k).length := by
    cases he : t.ends with
    | nil => exact absurd he hne
    | cons e es =>
      have q1 := hends e (by rw [he]; simp)
      have q2 := (hp.ends e (by rw [he]; simp)).2
      have q3 : s.written k = h.r.written := by unfold Sys.written; rw [hk]; rfl
      rw [hread, q3, ← q1]; exact q2
  refine ⟨?_, (C94_read_is_prefix_of_written hr k).eq_of_length hlen⟩
  have hst := ((hi.sok hm).ok.str t (List.mem_of_getElem? ht)).st
  have hend := RecvS.finSeen_spec ((hi.sok hm).ok.str t (List.mem_of_getElem? ht)) hseen
  have : h.r.closed = true := by
    apply hp.fin
    cases hs : t.st with
    | dataRead a b => rfl
    | resetRecvd a b => rw [hs] at hst; exact absurd (show t.finSeen = false from hst) (by simp [hseen])
    | _ => rw [hs] at hend; cases hend.1
  unfold Sys.closed
  rw [hk]
  exact this

/-! ## C95: the two endpoints do not break each other's rules -/

theorem run_append {s s' : Sys} {a b : List Ev} (h1 : s.run a = .ok s') : s.run (a ++ b) = s'.run b := by
  induction a generalizing s with
  | nil => cases h1; rfl
  | cons e a ih =>
    simp only [Sys.run, List.cons_append] at h1 ⊢
    split at h1
    · cases h1
    · rename_i s1 e1
      simp only [ih h1]

theorem keepsAll_append {s s' : Sys} {a b : List Ev} (h1 : s.run a = .ok s') (ha : KeepsAll s a) (hb : KeepsAll s' b) :
    KeepsAll s (a ++ b) := by
  induction a generalizing s with
  | nil => cases h1; exact hb
  | cons e a ih =>
    simp only [Sys.run] at h1
    refine ⟨ha.1, fun s1 e1 => ?_⟩
    rw [e1] at h1
    exact ih h1 (ha.2 s1 e1)

theorem reached_step {s s' : Sys} (hr : Reached s) {ev : Ev} (hk : Keeps s ev) (hs : s.step ev = .ok s') : Reached s' := by
  obtain ⟨m0, m, evs, h1, h2, h3, h4⟩ := hr
  refine ⟨m0, m, evs ++ [ev], h1, h2, keepsAll_append h4 h3 ⟨hk, fun _ _ => trivial⟩, ?_⟩
  rw [run_append h4]
  simp only [Sys.run, hs]

/-- As long as the reading application does not make a receive window smaller, nothing that happens
makes an endpoint fail: each event leads to another such state.  The only exception is a STREAM
frame for a stream of which 4096 or more separate pieces wait to be read. -/
theorem C95_no_event_breaks_a_connection_partial {s : Sys} (hr : Reached s) (ev : Ev) (hk : Keeps s ev) :
    (∃ s', s.step ev = .ok s' ∧ Reached s') ∨
    ∃ k j t, ev = .arrive k j ∧ s.step ev = .error .protocolViolation ∧ s.rcv.streams[k]? = some t ∧ 4096 ≤ t.st.pieces := by
  obtain ⟨m, hm, hi⟩ := reached_inv hr
  rcases step_inv hm hi ev hk with ⟨s', h1, _⟩ | ⟨⟨k, j, rfl⟩, h1⟩
  · exact .inl ⟨s', h1, reached_step hr hk h1⟩
  · refine .inr ?_
    have h1' := h1
    simp only [Sys.step] at h1
    cases hk : s.snd.streams[k]? with
    | none => rw [hk] at h1; cases h1
    | some h =>
      rw [hk] at h1
      simp only at h1
      cases hj : h.r.frames[j]? with
      | none => rw [hj] at h1; cases h1
      | some f =>
        rw [hj] at h1
        simp only at h1
        obtain ⟨t, ar, ht, ha⟩ := hi.entry hk
        refine ⟨k, j, t, rfl, h1', ht, ?_⟩
        have hs : t.step s.rcv.ses (arrival f) = .error .protocolViolation := by
          cases hs : t.step s.rcv.ses (arrival f) with
          | ok r => simp [Sys.onRcv, RecvS.Conn.step, ht, hs, bind, Except.bind, pure, Except.pure] at h1
          | error e =>
            simp [Sys.onRcv, RecvS.Conn.step, ht, hs, bind, Except.bind] at h1
            rw [h1]
        obtain ⟨_, off, d, fin, fill, rfl⟩ := arrival_error hm hi hk ht (List.mem_of_getElem? hj) hs
        exact RecvS.frame_pieces ((hi.sok hm).fit (List.mem_of_getElem? ht)) hs

/-! ## C96: nothing that was written is lost for good -/

/-- The `j`-th frame of a stream is its `i`-th STREAM frame. -/
def NthStream (h : Send.Hist) (j i : Nat) : Prop :=
  ∃ off d fin fill, h.r.frames[j]? = some (.stream off d fin fill) ∧ ((h.r.frames.take j).filterMap Send.tokOf).length = i

theorem tok_at {h : Send.Hist} (hr : Send.Reached h) {j i : Nat} {off : Nat} {d : Bytes} {fin fill : Bool}
    (hj : h.r.frames[j]? = some (.stream off d fin fill)) (hn : ((h.r.frames.take j).filterMap Send.tokOf).length = i) :
    h.r.toks[i]? = some ⟨off, d.length, fin⟩ := by
  rw [(Send.reached_inv hr).rcd.toks]
  have hlt := (List.getElem?_eq_some_iff.mp hj).1
  have : h.r.frames = h.r.frames.take j ++ .stream off d fin fill :: h.r.frames.drop (j + 1) := by
    conv => lhs; rw [← List.take_append_drop j h.r.frames, List.drop_eq_getElem_cons hlt]
    rw [(List.getElem?_eq_some_iff.mp hj).2]
  rw [this, List.filterMap_append, List.getElem?_append_right (by rw [hn]; exact Nat.le_refl _), hn, Nat.sub_self]
  rfl

/-- A STREAM frame that arrived while the stream was being read has been taken note of. -/
theorem arrived_noted {m : Nat} {s : Sys} (hi : SInv m s) {k : Nat} {h : Send.Hist} {t : RecvS.Tr} {ar : List Nat}
    (hk : s.snd.streams[k]? = some h) (ht : s.rcv.streams[k]? = some t) (ha : s.arrived[k]? = some ar)
    (hne : t.st.isEnded = false) {i j : Nat} (hj : j ∈ ar) (hn : NthStream h j i) {x : Send.Tok} (hx : h.r.toks[i]? = some x) :
    (∀ y, x.off ≤ y → y < x.off + x.len → ∃ b, t.Carried y b) ∧ (x.fin = true → x.off + x.len ∈ t.ends) := by
  obtain ⟨off, d, fin, fill, h1, h2⟩ := hn
  rw [tok_at (hi.each k h hk).1 h1 h2] at hx
  cases hx
  obtain ⟨f, h3, h4⟩ := (hi.pair k h t ar hk ht ha).arr j hj
  rw [h1] at h3; cases h3
  rcases h4 with h4 | ⟨h4, h5⟩
  · rw [hne] at h4; cases h4
  · exact ⟨fun y hy1 hy2 => ⟨d[y - off]'(by simp only at hy1 hy2; omega), off, d, h4, hy1,
      List.getElem?_eq_getElem (by simp only at hy1 hy2; omega)⟩, h5⟩

/-- The reader has every byte that was written, and knows where the stream ends if it was closed. -/
def HasAll (h : Send.Hist) (t : RecvS.Tr) : Prop :=
  (∀ i b, h.r.written[i]? = some b → t.Carried i b) ∧ (h.r.closed = true → h.r.written.length ∈ t.ends)

theorem has_all {m : Nat} {s : Sys} (hi : SInv m s) {k : Nat} {h : Send.Hist} {t : RecvS.Tr} {ar : List Nat}
    (hk : s.snd.streams[k]? = some h) (ht : s.rcv.streams[k]? = some t) (ha : s.arrived[k]? = some ar)
    (hne : t.st.isEnded = false) (is : List Nat) (hall : ∀ i ∈ is, ∃ j ∈ ar, NthStream h j i)
    (hb : ∀ y, y < h.r.written.length → ∃ i ∈ is, ∃ x, h.r.toks[i]? = some x ∧ x.off ≤ y ∧ y < x.off + x.len)
    (hf : h.r.closed = true → ∃ i ∈ is, ∃ x, h.r.toks[i]? = some x ∧ x.fin = true) : HasAll h t := by
  constructor
  · intro y b hy
    obtain ⟨i, hi1, x, hx1, hx2, hx3⟩ := hb y (List.getElem?_eq_some_iff.mp hy).1
    obtain ⟨j, hj, hn⟩ := hall i hi1
    obtain ⟨b', hb'⟩ := (arrived_noted hi hk ht ha hne hj hn hx1).1 y hx2 hx3
    have := carried_written hi ht hb'
    unfold Sys.written at this
    rw [hk] at this
    simp only [Option.map_some, Option.getD_some] at this
    rw [hy] at this; cases this
    exact hb'
  · intro hc
    obtain ⟨i, hi1, x, hx1, hx2⟩ := hf hc
    obtain ⟨j, hj, hn⟩ := hall i hi1
    have := (arrived_noted hi hk ht ha hne hj hn hx1).2 hx2
    have h2 := ((Send.reached_inv (hi.each k h hk).1).rcd.fin x (List.mem_of_getElem? hx1) hx2).2
    rw [← h2]; exact this

/-- Once the writer has been told that a stream is complete, the reader has all of it (unless it is
done with the stream). -/
theorem C96_complete_means_arrived {s : Sys} (hr : Reached s) {k : Nat} {h : Send.Hist} {t : RecvS.Tr}
    (hk : s.snd.streams[k]? = some h) (ht : s.rcv.streams[k]? = some t) (hc : Send.Ev.complete ∈ h.s.events)
    (hne : t.st.isEnded = false) : HasAll h t := by
  obtain ⟨m, hm, hi⟩ := reached_inv hr
  obtain ⟨t', ar, e1, ha⟩ := hi.entry hk
  rw [ht] at e1; cases e1
  obtain ⟨_, _, h1, h2⟩ := Send.C19_complete_means_acked (hi.each k h hk).1 hc
  exact has_all hi hk ht ha hne h.r.acks (fun i hx => (hi.pair k h t ar hk ht ha).acks i hx) h1 (fun _ => h2)

/-- When the sender has nothing of a stream to send and every STREAM frame that it does not consider
lost has arrived, the reader has everything that was written: whatever was lost on the way, no byte
is forgotten. -/
theorem C96_nothing_forgotten {s : Sys} (hr : Reached s) {k : Nat} {h h' : Send.Hist} {t : RecvS.Tr} {ar : List Nat}
    (hk : s.snd.streams[k]? = some h) (ht : s.rcv.streams[k]? = some t) (ha : s.arrived[k]? = some ar)
    (hnr : h.r.resetCalled = false) (hne : t.st.isEnded = false)
    (hlive : ∀ i ∈ h.r.live, ∃ j ∈ ar, NthStream h j i)
    {conn conn' : SFc} {rem split : Nat} {w : Send.Wrote} (hroom : 82 ≤ rem)
    (hs : h.step conn (.frames h.s.prio rem split) = .ok (h', conn', .wrote w))
    (hno : ∀ off d fin fill, Send.Frame.stream off d fin fill ∉ w.frames) : HasAll h t := by
  obtain ⟨m, hm, hi⟩ := reached_inv hr
  obtain ⟨q1, q2⟩ := Send.C18_nothing_offered (hi.each k h hk).1 hs hroom hno
  have hp := hi.pair k h t ar hk ht ha
  refine has_all hi hk ht ha hne (h.r.acks ++ h.r.live) ?_ ?_ ?_
  · intro i hx
    rcases List.mem_append.mp hx with hx | hx
    · exact hp.acks i hx
    · exact hlive i hx
  · intro y hy
    rcases q1 y (by simpa [Send.Rec.goal, hnr] using hy) with ⟨i, h1, h2⟩ | ⟨i, h1, h2⟩
    · exact ⟨i, List.mem_append_left _ h1, h2⟩
    · exact ⟨i, List.mem_append_right _ h1, h2⟩
  · intro hc
    rcases q2 hnr hc with ⟨i, h1, h2⟩ | ⟨i, h1, h2⟩
    · exact ⟨i, List.mem_append_right _ h1, h2⟩
    · exact ⟨i, List.mem_append_left _ h1, h2⟩

theorem readsOf_snoc {k : Nat} {ops : List RecvS.COp} {os : List RecvS.Out} (hl : ops.length = os.length) (n : Nat) (o : RecvS.Out) :
    RecvS.readsOf k (ops ++ [.onStream k (.read n)]) (os ++ [o]) = RecvS.readsOf k ops os ++ [o] := by
  induction ops generalizing os with
  | nil =>
    cases os with
    | nil => simp [RecvS.readsOf]
    | cons a os => cases hl
  | cons op ops ih =>
    cases os with
    | nil => cases hl
    | cons a os =>
      have ih := ih (os := os) (by simpa using hl)
      cases op with
      | onStream j op =>
        cases op with
        | read x =>
          simp only [List.cons_append, RecvS.readsOf, ih]
          split <;> rfl
        | _ => simpa only [List.cons_append, RecvS.readsOf] using ih
      | _ => simpa only [List.cons_append, RecvS.readsOf] using ih

theorem run_length {c c' : RecvS.Conn} {ops : List RecvS.COp} {os : List RecvS.Out} (h : c.run ops = .ok (c', os)) :
    ops.length = os.length := by
  induction ops generalizing c os with
  | nil => cases h; rfl
  | cons op ops ih =>
    simp only [RecvS.Conn.run, Except.bind_eq_ok, Except.pure_eq_ok] at h
    obtain ⟨⟨c1, o⟩, h1, ⟨c2, os2⟩, h2, h3⟩ := h
    cases h3
    simp [ih h2]

/-- A reader that has everything of a closed stream, and has not given it up, gets the rest and the
end with one read that is large enough; then it has read exactly what was written. -/
theorem C96_rest_is_read {s : Sys} (hr : Reached s) {k : Nat} {h : Send.Hist} {t : RecvS.Tr} (hk : s.snd.streams[k]? = some h)
    (ht : s.rcv.streams[k]? = some t) (hall : HasAll h t) (hc : h.r.closed = true) (hact : t.Active) {n : Nat}
    (hn : (s.written k).length ≤ (s.read k).length + n) :
    ∃ s', s.step (.recv k (.read n)) = .ok s' ∧ s'.sawFin k ∧ s'.read k = s'.written k ∧ s'.written k = s.written k := by
  obtain ⟨m, hm, hi⟩ := reached_inv hr
  have hw : s.written k = h.r.written := by unfold Sys.written; rw [hk]; rfl
  have hd : s.read k = t.delivered := by
    have := RecvS.delivered_eq k hi.run
    have e0 : RecvS.deliveredAt (RecvS.Conn.new m) k = [] := by simp [RecvS.deliveredAt, RecvS.Conn.new]
    rw [e0, List.nil_append] at this
    unfold Sys.read
    rw [← this]
    simp [RecvS.deliveredAt, ht]
  obtain ⟨c', out, hs⟩ := RecvS.C08_fin_is_reported hm hi.sane hi.run ht hact (hall.2 hc)
    (fun i hlt => ⟨_, hall.1 i _ (List.getElem?_eq_getElem hlt)⟩) (n := n) (by rw [hw, hd] at hn; exact hn)
  have hstep : s.step (.recv k (.read n)) = .ok { s with rcv := c', stops := stopOf (.onStream k (.read n)) (.data out true) ++ s.stops, rops := s.rops ++ [.onStream k (.read n)], routs := s.routs ++ [.data out true] } := by
    simp only [Sys.step, localRcv, Sys.onRcv, hs]; rfl
  refine ⟨_, hstep, ?_⟩
  have hr' := reached_step hr (ev := .recv k (.read n)) trivial hstep
  have hfin : Sys.sawFin { s with rcv := c', stops := stopOf (.onStream k (.read n)) (.data out true) ++ s.stops, rops := s.rops ++ [.onStream k (.read n)], routs := s.routs ++ [.data out true] } k := by
    refine ⟨out, ?_⟩
    rw [readsOf_snoc (run_length hi.run)]
    simp
  exact ⟨hfin, (C94_fin_means_everything_read hr' hfin).2, rfl⟩

/-- In particular: once the writer has been told that the stream is complete. -/
theorem C96_complete_stream_can_be_read {s : Sys} (hr : Reached s) {k : Nat} {h : Send.Hist} {t : RecvS.Tr}
    (hk : s.snd.streams[k]? = some h) (ht : s.rcv.streams[k]? = some t) (hc : Send.Ev.complete ∈ h.s.events) (hact : t.Active)
    {n : Nat} (hn : (s.written k).length ≤ (s.read k).length + n) :
    ∃ s', s.step (.recv k (.read n)) = .ok s' ∧ s'.sawFin k ∧ s'.read k = s'.written k ∧ s'.written k = s.written k := by
  have hne : t.st.isEnded = false := by
    rcases hact with ⟨_, _, e⟩ | ⟨_, _, e⟩ | ⟨_, _, e⟩ <;> rw [e] <;> rfl
  obtain ⟨m, hm, hi⟩ := reached_inv hr
  exact C96_rest_is_read hr hk ht (C96_complete_means_arrived hr hk ht hc hne)
    (Send.C19_complete_means_acked (hi.each k h hk).1 hc).1 hact hn

/-! ## The window may not shrink -/

/-- Stream 0 gets 40 of the 100 bytes it may; they are read, the application makes the window smaller
and MAX_STREAM_DATA goes out.  The writer uses the rest of the 100 bytes that it was promised. -/
def shrunk : List Ev :=
  [.opens 0 100 100, .send 0 (.write (List.replicate 40 7) false), .send 0 (.frames 0 200 0), .arrive 0 0, .recv 0 (.read 40),
   .window 0 10, .recv 0 (.write true 0 0), .send 0 (.write (List.replicate 60 8) false), .send 0 (.frames 0 200 0)]

/-- Without the condition on windows the claim is false: an application that makes the receive window
of a stream smaller makes its endpoint close the connection with FLOW_CONTROL_ERROR although the
peer kept to every limit it was given. -/
theorem C95_smaller_window_breaks_connection :
    ∃ s, (Sys.new 1000 1000).run shrunk = .ok s ∧ s.step (.arrive 0 1) = .error .flowControl := by
  have h : (match (Sys.new 1000 1000).run shrunk with
      | .ok s => (match s.step (.arrive 0 1) with | .error e => decide (e = .flowControl) | .ok _ => false)
      | .error _ => false) = true := by decide +kernel
  cases hr : (Sys.new 1000 1000).run shrunk with
  | error e => rw [hr] at h; cases h
  | ok s =>
    rw [hr] at h
    refine ⟨s, rfl, ?_⟩
    cases hs : s.step (.arrive 0 1) with
    | ok x => simp [hs] at h
    | error e =>
      simp only [hs] at h
      rw [of_decide_eq_true h]

/-! ## Examples -/

/-- Two streams.  On the first, five bytes go out in two frames; the first frame is lost and sent
again after the second arrived, out of order and twice. -/
def demo : List Ev :=
  [.opens 0 100 100, .opens 4 10 20, .send 0 (.write [1, 2, 3] false), .send 0 (.frames 0 100 0),
   .send 1 (.write [9] false), .send 0 (.write [4, 5] false), .send 0 .close, .send 0 (.frames 0 100 0),
   .arrive 0 1, .ack 0 1, .send 0 (.lost 0), .recv 0 (.read 10), .send 0 (.frames 0 100 0), .arrive 0 2, .arrive 0 2,
   .recv 0 (.read 2)]

theorem keepsAll_of_no_window {evs : List Ev} (h : ∀ e ∈ evs, ∀ k w, e ≠ .window k w) (s : Sys) : KeepsAll s evs := by
  induction evs generalizing s with
  | nil => trivial
  | cons e es ih =>
    refine ⟨?_, fun s' _ => ih (fun e he => h e (List.mem_cons_of_mem _ he)) s'⟩
    cases e with
    | window k w => exact absurd rfl (h _ (by simp) k w)
    | _ => trivial

/-- A run that ends well, for examples. -/
theorem reached_of {m0 m : Nat} {evs : List Ev} (h0 : m0 ≤ m) (hm : m ≤ maxVarint) (hw : ∀ e ∈ evs, ∀ k w, e ≠ .window k w)
    {P : Sys → Bool} (h : (match (Sys.new m0 m).run evs with | .ok s => P s | .error _ => false) = true) :
    ∃ s, Reached s ∧ P s = true := by
  cases hr : (Sys.new m0 m).run evs with
  | error e => rw [hr] at h; cases h
  | ok s => rw [hr] at h; exact ⟨s, ⟨m0, m, evs, h0, hm, keepsAll_of_no_window hw _, hr⟩, h⟩

/-- In the middle of a transfer. -/
example : ∃ s, Reached s ∧ decide (s.read 0 = [1, 2] ∧ s.written 0 = [1, 2, 3, 4, 5] ∧ s.closed 0 = true ∧ s.written 1 = [9]) = true :=
  reached_of (m0 := 50) (m := 60) (evs := demo) (by decide) (by decide) (by simp [demo]) (by decide +kernel)

/-- The reader sees the end. -/
example : ∃ s, Reached s ∧ decide (s.read 0 = [1, 2, 3, 4, 5] ∧ RecvS.Out.data [3, 4, 5] true ∈ RecvS.readsOf 0 s.rops s.routs) = true :=
  reached_of (m0 := 50) (m := 60) (evs := demo ++ [.recv 0 (.read 3)]) (by decide) (by decide) (by simp [demo]) (by decide +kernel)

/-- The writer is told that the stream is complete while the reader still has to read. -/
example : ∃ s, Reached s ∧ (match s.snd.streams[0]?, s.rcv.streams[0]? with
    | some h, some t => decide (Send.Ev.complete ∈ h.s.events ∧ s.read 0 = [1, 2]) &&
      (match t.st with | .dataRecvd _ _ => true | _ => false)
    | _, _ => false) = true :=
  reached_of (m0 := 50) (m := 60) (evs := demo ++ [.ack 0 2]) (by decide) (by decide) (by simp [demo]) (by decide +kernel)

/-- The sender has nothing to send, and what it does not consider lost has arrived, before any
acknowledgement of the last frame. -/
example : ∃ s, Reached s ∧ (match s.snd.streams[0]?, s.arrived[0]? with
    | some h, some ar => (match h.step s.snd.fc (.frames h.s.prio 100 0) with
      | .ok (_, _, .wrote w) => decide (w.frames = [] ∧ h.r.live = [1, 2] ∧ h.r.acks = [1] ∧ ar = [2, 2, 1] ∧ h.r.frames.length = 3)
      | _ => false)
    | _, _ => false) = true :=
  reached_of (m0 := 50) (m := 60) (evs := demo) (by decide) (by decide) (by simp [demo]) (by decide +kernel)

end Neqo.E2E
