import Verif.E2E.Open
import Verif.E2E.Props

/-!
# Flow control does not strand a writer (C97)
-/
namespace Neqo.E2E
open Neqo.Codec (Bytes maxVarint)

/-! ## What is observed -/

/-- The receive window of a stream that goes on: how many bytes beyond those read the reader is
willing to hold. -/
def Sys.window (s : Sys) (k : Nat) : Option Nat :=
  match s.rcv.streams[k]?.map RecvS.Tr.st with
  | some (.recv fc _) => some fc.maxActive
  | _ => none

/-- The receive window of the connection. -/
def Sys.connWindow (s : Sys) : Nat := s.rcv.ses.maxActive

/-- The limit that the writer of a stream goes by. -/
def Sys.knownLimit (s : Sys) (k : Nat) : Nat := (s.snd.streams[k]?.map (fun h => h.r.limit)).getD 0

/-- Bytes that have arrived on all streams together (those that are missing below them included). -/
def Sys.used (s : Sys) : Nat := (s.rcv.streams.map RecvS.Tr.hi).sum

/-- Of those, the ones that the application has still to read. -/
def Sys.unread (s : Sys) : Nat := (s.rcv.streams.map RecvS.Tr.outstanding).sum

/-! ## Lemmas -/

theorem window_some {s : Sys} {k W : Nat} (h : s.window k = some W) :
    ∃ t fc buf, s.rcv.streams[k]? = some t ∧ t.st = .recv fc buf ∧ fc.maxActive = W := by
  unfold Sys.window at h
  cases ht : s.rcv.streams[k]? with
  | none => rw [ht] at h; cases h
  | some t =>
    rw [ht] at h
    simp only [Option.map_some] at h
    cases hst : t.st with
    | recv fc buf => rw [hst] at h; cases h; exact ⟨t, fc, buf, rfl, hst, rfl⟩
    | _ => rw [hst] at h; cases h

theorem read_eq {m : Nat} {s : Sys} (hi : SInv m s) {k : Nat} {t : RecvS.Tr} (ht : s.rcv.streams[k]? = some t) :
    s.read k = t.delivered := by
  have := RecvS.delivered_eq k hi.run
  have e0 : RecvS.deliveredAt (RecvS.Conn.new m) k = [] := by simp [RecvS.deliveredAt, RecvS.Conn.new]
  rw [e0, List.nil_append] at this
  unfold Sys.read
  rw [← this]
  simp [RecvS.deliveredAt, ht]

theorem announced_eq {s : Sys} {k : Nat} {t : RecvS.Tr} (ht : s.rcv.streams[k]? = some t) : s.announced k = t.advertised := by
  unfold Sys.announced; rw [ht]; rfl

theorem cwide {m : Nat} {s : Sys} (hm : m ≤ maxVarint) (hi : SInv m s) : RecvS.CWide s.rcv :=
  RecvS.cwide_run (RecvS.cwide_new m) (RecvS.sok_new hm) hi.sane hi.run

/-- What is known of a stream that goes on. -/
theorem at_recv {m : Nat} {s : Sys} (hm : m ≤ maxVarint) (hi : SInv m s) {k : Nat} {t : RecvS.Tr} {fc : Flow.RFc} {buf : Recv.Rx}
    (ht : s.rcv.streams[k]? = some t) (hst : t.st = .recv fc buf) :
    Flow.FcOk fc ∧ Flow.Wide fc ∧ (s.announced k).head? = some fc.maxAllowed ∧ (s.read k).length = fc.retired := by
  have hs := hi.sok hm
  have hmem := List.mem_of_getElem? ht
  have h1 := (hs.ok.str t hmem).st
  rw [hst] at h1
  obtain ⟨⟨_, h2⟩, _, h3, h4, _⟩ := h1
  refine ⟨(hs.lim t hmem).fc fc buf hst, (cwide hm hi).str k t ht fc buf hst, by rw [announced_eq ht]; exact h2, ?_⟩
  rw [read_eq hi ht, h3, h4]

theorem onRcv_ok {s : Sys} {op : RecvS.COp} {c : RecvS.Conn} {o : RecvS.Out} (h : s.rcv.step op = .ok (c, o)) :
    ∃ s', s.onRcv op = .ok s' ∧ s'.snd = s.snd ∧ s'.rcv = c ∧ s'.arrived = s.arrived := by
  unfold Sys.onRcv
  rw [h]
  exact ⟨_, rfl, rfl, rfl, rfl⟩

/-- A packet that carries MAX_STREAM_DATA. -/
theorem write_stream {s : Sys} {k : Nat} {t : RecvS.Tr} {fc fc' : Flow.RFc} {buf : Recv.Rx} {l now rtt : Nat}
    (ht : s.rcv.streams[k]? = some t) (hst : t.st = .recv fc buf)
    (hw : fc.write true now rtt Flow.maxLocalMaxStreamData = .ok (fc', some l)) :
    ∃ s', s.step (.recv k (.write true now rtt)) = .ok s' ∧ s'.snd = s.snd ∧ s'.announced k = l :: s.announced k ∧
      s'.rcv.advertised = s.rcv.advertised := by
  have h1 : t.step s.rcv.ses (.write true now rtt) =
      .ok ({ t with st := .recv fc' buf, advertised := l :: t.advertised }, s.rcv.ses, .sent (.maxStreamData l)) := by
    simp only [RecvS.Tr.step, hst, RecvS.State.writeFrame, hw]; rfl
  have h2 : s.rcv.step (.onStream k (.write true now rtt)) = .ok ({ s.rcv with ses := s.rcv.ses, streams := s.rcv.streams.set k { t with st := .recv fc' buf, advertised := l :: t.advertised } }, .sent (.maxStreamData l)) := by
    simp only [RecvS.Conn.step, ht, h1]; rfl
  obtain ⟨s', e1, e2, e3, _⟩ := onRcv_ok h2
  refine ⟨s', by simp only [Sys.step, localRcv, if_true, e1], e2, ?_, by rw [e3]⟩
  unfold Sys.announced
  rw [e3]
  simp only [ht, List.getElem?_set_self (List.getElem?_eq_some_iff.mp ht).1]
  rfl

theorem announced_grows {s s' : Sys} {k now rtt : Nat} {fits : Bool} (h : s.step (.recv k (.write fits now rtt)) = .ok s') :
    (∀ l ∈ s.announced k, l ∈ s'.announced k) ∧ s'.snd = s.snd := by
  simp only [Sys.step, localRcv, if_true, Sys.onRcv] at h
  split at h
  · cases h
  · rename_i c o hc
    cases h
    refine ⟨?_, rfl⟩
    unfold Sys.announced
    simp only [RecvS.Conn.step] at hc
    split at hc
    · cases hc; exact fun l h => h
    · rename_i t ht
      simp only [Except.bind_eq_ok, Except.pure_eq_ok, RecvS.Tr.step] at hc
      obtain ⟨⟨t', ses', o'⟩, ⟨⟨st', f⟩, _, e1⟩, e2⟩ := hc
      cases e1
      cases e2
      simp only [ht, List.getElem?_set_self (List.getElem?_eq_some_iff.mp ht).1, Option.map_some, Option.getD_some]
      intro l hl
      split
      · exact List.mem_cons_of_mem _ hl
      · exact hl

/-- A packet that may carry MAX_DATA. -/
theorem write_conn_grows {s : Sys} (h : Flow.FcOk s.rcv.ses) (now rtt : Nat) :
    ∃ s', s.step (.maxDataWrite true now rtt) = .ok s' ∧ s'.snd = s.snd ∧ (∀ l ∈ s.rcv.advertised, l ∈ s'.rcv.advertised) ∧
      s'.rcv.streams = s.rcv.streams := by
  obtain ⟨⟨fc', o⟩, hw⟩ := Flow.write_succeeds h true now rtt Flow.maxLocalMaxData
  have h2 : ∃ c out, s.rcv.step (.write true now rtt) = .ok (c, out) ∧ (∀ l ∈ s.rcv.advertised, l ∈ c.advertised) ∧
      c.streams = s.rcv.streams := by
    cases o with
    | none => exact ⟨{ s.rcv with ses := fc' }, .nothing, by simp only [RecvS.Conn.step, hw]; rfl, fun l hl => hl, rfl⟩
    | some l' =>
      exact ⟨{ s.rcv with ses := fc', advertised := l' :: s.rcv.advertised }, .sentMaxData l', by simp only [RecvS.Conn.step, hw]; rfl, fun l hl => List.mem_cons_of_mem _ hl, rfl⟩
  obtain ⟨c, out, h2, h3, h4⟩ := h2
  obtain ⟨s', e1, e2, e3, _⟩ := onRcv_ok h2
  exact ⟨s', by simp only [Sys.step, e1], e2, by rw [e3]; exact h3, by rw [e3]; exact h4⟩

/-- A packet that carries MAX_DATA. -/
theorem write_conn {s : Sys} {fc' : Flow.RFc} {l now rtt : Nat}
    (hw : s.rcv.ses.write true now rtt Flow.maxLocalMaxData = .ok (fc', some l)) :
    ∃ s', s.step (.maxDataWrite true now rtt) = .ok s' ∧ s'.snd = s.snd ∧ s'.rcv.advertised = l :: s.rcv.advertised ∧
      s'.rcv.streams = s.rcv.streams := by
  have h2 : s.rcv.step (.write true now rtt) = .ok ({ s.rcv with ses := fc', advertised := l :: s.rcv.advertised }, .sentMaxData l) := by
    simp only [RecvS.Conn.step, hw]; rfl
  obtain ⟨s', e1, e2, e3, _⟩ := onRcv_ok h2
  exact ⟨s', by simp only [Sys.step, e1], e2, by rw [e3], by rw [e3]⟩

theorem sum_eq (f : RecvS.Tr → Nat) (l : List RecvS.Tr) : (l.map f).sum = RecvS.sumBy f l := by
  induction l with
  | nil => rfl
  | cons a l ih => simp only [List.map_cons, List.sum_cons, RecvS.sumBy, ih]

theorem at_conn {m : Nat} {s : Sys} (hm : m ≤ maxVarint) (hi : SInv m s) :
    Flow.FcOk s.rcv.ses ∧ Flow.Wide s.rcv.ses ∧ s.rcv.advertised.head? = some s.rcv.ses.maxAllowed ∧
      s.used - s.unread = s.rcv.ses.retired := by
  have hs := hi.sok hm
  refine ⟨hs.ses, (cwide hm hi).ses, hs.ok.adv, ?_⟩
  have := hs.ok.ret
  unfold Sys.used Sys.unread
  rw [sum_eq, sum_eq]
  omega

/-! ## Streams -/

/-- The reader always leaves at least three quarters of the window open beyond what has been read,
or its next packet with room raises the limit to a whole window beyond that (unless the limit is
the largest there is). -/
theorem C97_stream_window_open_or_raised {s : Sys} (hr : Reached s) {k W l : Nat} (hw : s.window k = some W)
    (hl : (s.announced k).head? = some l) (now rtt : Nat) :
    W - W / 4 ≤ l - (s.read k).length ∨ l = 2 ^ 62 - 1 ∨
      ∃ s' l', s.step (.recv k (.write true now rtt)) = .ok s' ∧ s'.announced k = l' :: s.announced k ∧ l < l' ∧
        min ((s.read k).length + W) (2 ^ 62 - 1) ≤ l' := by
  obtain ⟨m, hm, hi⟩ := reached_inv hr
  obtain ⟨t, fc, buf, ht, hst, rfl⟩ := window_some hw
  obtain ⟨h1, h2, h3, h4⟩ := at_recv hm hi ht hst
  rw [h3] at hl; cases hl
  by_cases ha : fc.maxActive - fc.maxActive / 4 ≤ fc.maxAllowed - (s.read k).length
  · exact .inl ha
  · by_cases hb : fc.maxAllowed = 2 ^ 62 - 1
    · exact .inr (.inl hb)
    · obtain ⟨fc', l', w1, w2, w3⟩ := Flow.write_announces h1 h2 (by rw [h4] at ha; omega) hb now rtt Flow.maxLocalMaxStreamData
      obtain ⟨s', e1, e2, e3, _⟩ := write_stream ht hst w1
      exact .inr (.inr ⟨s', l', e1, e3, w2, by rw [h4]; exact w3⟩)

/-- When the limit arrives, the writer goes by it. -/
theorem raise_known {s : Sys} (hr : Reached s) {k l : Nat} (hk : k < s.snd.streams.length) (hl : l ∈ s.announced k) :
    ∃ s', s.step (.raise k l) = .ok s' ∧ l ≤ s'.knownLimit k ∧ s'.written k = s.written k ∧ s'.rcv = s.rcv := by
  obtain ⟨m, hm, hi⟩ := reached_inv hr
  obtain ⟨s', e, _⟩ := raise_inv hi k l
  refine ⟨s', e, ?_⟩
  simp only [Sys.step, if_pos hl, Sys.onSnd] at e
  split at e
  · cases e
  · rename_i c hc
    cases e
    have hg : s.snd.streams[k]? = some s.snd.streams[k] := List.getElem?_eq_getElem hk
    simp only [Send.Conn.step, hg, Send.Hist.step, Except.bind_eq_ok] at hc
    obtain ⟨⟨h', fc', o⟩, ⟨s1, _, e2⟩, e3⟩ := hc
    cases e2
    cases e3
    refine ⟨?_, ?_, rfl⟩
    · simp only [Sys.knownLimit, List.getElem?_set_self hk, Option.map_some, Option.getD_some]
      omega
    · simp only [Sys.written, List.getElem?_set_self hk, hg, Option.map_some, Option.getD_some]

/-- A writer whose reader has caught up is not left without credit: one packet from the reader is
enough for it to be allowed at least three quarters of a window more. -/
theorem C97_reader_that_caught_up_gives_credit {s : Sys} (hr : Reached s) {k W : Nat} (hw : s.window k = some W)
    (hread : s.read k = s.written k) (now rtt : Nat) :
    ∃ s1 l s2, s.step (.recv k (.write true now rtt)) = .ok s1 ∧ l ∈ s1.announced k ∧ s1.step (.raise k l) = .ok s2 ∧
      s2.written k = s.written k ∧ min ((s.written k).length + (W - W / 4)) (2 ^ 62 - 1) ≤ s2.knownLimit k := by
  obtain ⟨m, hm, hi⟩ := reached_inv hr
  obtain ⟨t, fc, buf, ht, hst, rfl⟩ := window_some hw
  obtain ⟨h1, h2, h3, h4⟩ := at_recv hm hi ht hst
  have hk : k < s.snd.streams.length := by
    have := (List.getElem?_eq_some_iff.mp ht).1
    have := hi.len
    omega
  have main : ∃ s1 l, s.step (.recv k (.write true now rtt)) = .ok s1 ∧ l ∈ s1.announced k ∧ s1.snd = s.snd ∧
      min ((s.read k).length + (fc.maxActive - fc.maxActive / 4)) (2 ^ 62 - 1) ≤ l := by
    rcases C97_stream_window_open_or_raised hr hw h3 now rtt with h | h | ⟨s', l', e1, e2, e3, e4⟩
    · rcases step_inv hm hi (.recv k (.write true now rtt)) trivial with ⟨s', e, _⟩ | ⟨⟨_, _, x⟩, _⟩
      · have hmem : fc.maxAllowed ∈ s'.announced k ∧ s'.snd = s.snd := by
          have := announced_grows e
          exact ⟨this.1 _ (List.mem_of_mem_head? h3), this.2⟩
        refine ⟨s', fc.maxAllowed, e, hmem.1, hmem.2, ?_⟩
        have := h1.ret; have := h1.con
        omega
      · cases x
    · rcases step_inv hm hi (.recv k (.write true now rtt)) trivial with ⟨s', e, _⟩ | ⟨⟨_, _, x⟩, _⟩
      · have := announced_grows e
        exact ⟨s', fc.maxAllowed, e, this.1 _ (List.mem_of_mem_head? h3), this.2, by omega⟩
      · cases x
    · refine ⟨s', l', e1, by rw [e2]; simp, ?_, by omega⟩
      exact (announced_grows e1).2
  obtain ⟨s1, l, e1, e2, e3, e4⟩ := main
  have hr1 := reached_step hr (ev := .recv k (.write true now rtt)) trivial e1
  obtain ⟨s2, f1, f2, f3, f4⟩ := raise_known hr1 (by rw [e3]; exact hk) e2
  refine ⟨s1, l, s2, e1, e2, f1, ?_, ?_⟩
  · rw [f3]; unfold Sys.written; rw [e3]
  · rw [← hread]; omega

/-- A reader that is told that the writer is blocked answers with a larger limit in its next packet
with room, unless it still holds a whole window of bytes that have not been read. -/
theorem C97_blocked_writer_is_answered {s s1 : Sys} (hr : Reached s) {k j W l b : Nat} {h : Send.Hist} (hw : s.window k = some W)
    (hl : (s.announced k).head? = some l) (hk : s.snd.streams[k]? = some h) (hj : h.r.frames[j]? = some (.blocked b))
    (hs : s.step (.arrive k j) = .ok s1) (hopen : l < (s.read k).length + W) (hmax : l ≠ 2 ^ 62 - 1) (now rtt : Nat) :
    ∃ s2 l', s1.step (.recv k (.write true now rtt)) = .ok s2 ∧ s2.announced k = l' :: s.announced k ∧ l < l' ∧
      min ((s.read k).length + W) (2 ^ 62 - 1) ≤ l' := by
  obtain ⟨m, hm, hi⟩ := reached_inv hr
  obtain ⟨t, fc, buf, ht, hst, rfl⟩ := window_some hw
  obtain ⟨h1, h2, h3, h4⟩ := at_recv hm hi ht hst
  rw [h3] at hl; cases hl
  have e0 : s.rcv.step (.onStream k .peerBlocked) = .ok ({ s.rcv with streams := s.rcv.streams.set k { t with st := .recv fc.sendFlowcUpdate buf } }, .nothing) := by
    simp only [RecvS.Conn.step, ht, RecvS.Tr.step, hst, RecvS.State.sendFlowcUpdate]; rfl
  obtain ⟨sa, a1, a2, a3, _⟩ := onRcv_ok e0
  simp only [Sys.step, hk, hj, arrival, a1] at hs
  cases hs
  obtain ⟨fc', l', w1, w2, w3⟩ := Flow.blocked_announces h1 (by rw [h4] at hopen; exact hopen) hmax now rtt Flow.maxLocalMaxStreamData
  have ht' : sa.rcv.streams[k]? = some { t with st := .recv fc.sendFlowcUpdate buf } := by
    rw [a3]
    simp only [List.getElem?_set_self (List.getElem?_eq_some_iff.mp ht).1]
  obtain ⟨s2, b1, b2, b3, _⟩ := write_stream (s := { sa with arrived := sa.arrived.modify k (j :: ·) }) ht' rfl w1
  refine ⟨s2, l', b1, ?_, w2, by rw [h4]; exact w3⟩
  rw [b3]
  unfold Sys.announced
  simp only [ht', ht]
  rfl

/-- If the latest limit is lost on its way, the next packet with room carries it again, or a larger
one. -/
theorem C97_lost_limit_is_announced_again {s : Sys} (hr : Reached s) {k W l : Nat} (hw : s.window k = some W)
    (hl : (s.announced k).head? = some l) (now rtt : Nat) :
    ∃ s1 s2 l', s.step (.recv k (.maxStreamDataLost l)) = .ok s1 ∧ s1.step (.recv k (.write true now rtt)) = .ok s2 ∧
      s2.announced k = l' :: s.announced k ∧ l ≤ l' := by
  obtain ⟨m, hm, hi⟩ := reached_inv hr
  obtain ⟨t, fc, buf, ht, hst, rfl⟩ := window_some hw
  obtain ⟨h1, h2, h3, h4⟩ := at_recv hm hi ht hst
  rw [h3] at hl; cases hl
  have e0 : s.rcv.step (.onStream k (.maxStreamDataLost fc.maxAllowed)) = .ok ({ s.rcv with streams := s.rcv.streams.set k { t with st := .recv (fc.frameLost fc.maxAllowed) buf } }, .nothing) := by
    simp only [RecvS.Conn.step, ht, RecvS.Tr.step, hst, RecvS.State.maxStreamDataLost]; rfl
  obtain ⟨sa, a1, a2, a3, _⟩ := onRcv_ok e0
  obtain ⟨fc', l', w1, w2⟩ := Flow.lost_announces h1 now rtt Flow.maxLocalMaxStreamData
  have ht' : sa.rcv.streams[k]? = some { t with st := .recv (fc.frameLost fc.maxAllowed) buf } := by
    rw [a3]
    simp only [List.getElem?_set_self (List.getElem?_eq_some_iff.mp ht).1]
  obtain ⟨s2, b1, b2, b3, _⟩ := write_stream ht' rfl w1
  refine ⟨sa, s2, l', by simp only [Sys.step, localRcv, if_true, a1], b1, ?_, w2⟩
  rw [b3]
  unfold Sys.announced
  simp only [ht', ht]
  rfl

/-! ## The connection -/

/-- The same for the limit that all streams share: at least three quarters of the window are open
beyond what has been used and is not waiting to be read, or the next packet with room raises it. -/
theorem C97_connection_window_open_or_raised {s : Sys} (hr : Reached s) {l : Nat} (hl : s.rcv.advertised.head? = some l)
    (now rtt : Nat) :
    s.connWindow - s.connWindow / 4 ≤ l - (s.used - s.unread) ∨ l = 2 ^ 62 - 1 ∨
      ∃ s' l', s.step (.maxDataWrite true now rtt) = .ok s' ∧ s'.rcv.advertised = l' :: s.rcv.advertised ∧ l < l' ∧
        min (s.used - s.unread + s.connWindow) (2 ^ 62 - 1) ≤ l' := by
  obtain ⟨m, hm, hi⟩ := reached_inv hr
  obtain ⟨h1, h2, h3, h4⟩ := at_conn hm hi
  rw [h3] at hl; cases hl
  unfold Sys.connWindow
  rw [h4]
  by_cases ha : s.rcv.ses.maxActive - s.rcv.ses.maxActive / 4 ≤ s.rcv.ses.maxAllowed - s.rcv.ses.retired
  · exact .inl ha
  · by_cases hb : s.rcv.ses.maxAllowed = 2 ^ 62 - 1
    · exact .inr (.inl hb)
    · obtain ⟨fc', l', w1, w2, w3⟩ := Flow.write_announces h1 h2 (by omega) hb now rtt Flow.maxLocalMaxData
      obtain ⟨s', e1, e2, e3, _⟩ := write_conn w1
      exact .inr (.inr ⟨s', l', e1, e3, w2, w3⟩)

/-- A reader that is told that the connection is blocked answers with a larger limit. -/
theorem C97_blocked_connection_is_answered {s : Sys} (hr : Reached s) {l : Nat} (hl : s.rcv.advertised.head? = some l)
    (hopen : l < s.used - s.unread + s.connWindow) (hmax : l ≠ 2 ^ 62 - 1) (now rtt : Nat) :
    ∃ s1 s2 l', s.step .dataBlocked = .ok s1 ∧ s1.step (.maxDataWrite true now rtt) = .ok s2 ∧
      s2.rcv.advertised = l' :: s.rcv.advertised ∧ l < l' := by
  obtain ⟨m, hm, hi⟩ := reached_inv hr
  obtain ⟨h1, h2, h3, h4⟩ := at_conn hm hi
  rw [h3] at hl; cases hl
  unfold Sys.connWindow at hopen
  rw [h4] at hopen
  have e0 : s.rcv.step .peerBlocked = .ok ({ s.rcv with ses := s.rcv.ses.sendFlowcUpdate }, .nothing) := rfl
  obtain ⟨sa, a1, a2, a3, _⟩ := onRcv_ok e0
  obtain ⟨fc', l', w1, w2, w3⟩ := Flow.blocked_announces h1 hopen hmax now rtt Flow.maxLocalMaxData
  obtain ⟨s2, b1, b2, b3, _⟩ := write_conn (s := sa) (by rw [a3]; exact w1)
  exact ⟨sa, s2, l', by simp only [Sys.step, a1], b1, by rw [b3, a3], w2⟩

/-- A limit of the connection that is lost is announced again. -/
theorem C97_lost_connection_limit_is_announced_again {s : Sys} (hr : Reached s) {l : Nat} (hl : s.rcv.advertised.head? = some l)
    (now rtt : Nat) :
    ∃ s1 s2 l', s.step (.maxDataLost l) = .ok s1 ∧ s1.step (.maxDataWrite true now rtt) = .ok s2 ∧
      s2.rcv.advertised = l' :: s.rcv.advertised ∧ l ≤ l' := by
  obtain ⟨m, hm, hi⟩ := reached_inv hr
  obtain ⟨h1, h2, h3, h4⟩ := at_conn hm hi
  rw [h3] at hl; cases hl
  have e0 : s.rcv.step (.maxDataLost s.rcv.ses.maxAllowed) = .ok ({ s.rcv with ses := s.rcv.ses.frameLost s.rcv.ses.maxAllowed }, .nothing) := rfl
  obtain ⟨sa, a1, a2, a3, _⟩ := onRcv_ok e0
  obtain ⟨fc', l', w1, w2⟩ := Flow.lost_announces h1 now rtt Flow.maxLocalMaxData
  obtain ⟨s2, b1, b2, b3, _⟩ := write_conn (s := sa) (by rw [a3]; exact w1)
  exact ⟨sa, s2, l', by simp only [Sys.step, a1], b1, by rw [b3, a3], w2⟩

theorem le_sum_of {l : List Nat} {x : Nat} (h : x ∈ l) : x ≤ l.sum := by
  induction l with
  | nil => cases h
  | cons a l ih =>
    rw [List.sum_cons]
    rcases List.mem_cons.mp h with rfl | h
    · omega
    · have := ih h; omega

/-- Bytes that the sending application has written to all streams together. -/
def Sys.total (s : Sys) : Nat := (s.snd.streams.map (fun h => h.r.written.length)).sum

theorem raiseAll_recs {hs hs' : List Send.Hist} {fc : Flow.SFc} {p c : Nat} (h : Send.raiseAll fc p c hs = .ok hs') :
    hs'.map Send.Hist.r = hs.map Send.Hist.r := by
  induction hs generalizing hs' with
  | nil => cases h; rfl
  | cons x hs ih =>
    simp only [Send.raiseAll, Except.bind_eq_ok, Send.Hist.step] at h
    obtain ⟨⟨x', f, o⟩, ⟨s1, _, e1⟩, hs1, e2, e3⟩ := h
    cases e1
    cases e3
    simp only [List.map_cons, ih e2]

theorem raiseConn_known {s : Sys} (hr : Reached s) {L : Nat} (hL : L ∈ s.rcv.advertised) :
    ∃ s', s.step (.raiseConn L) = .ok s' ∧ L ≤ s'.snd.limit ∧ s'.snd.streams.map Send.Hist.r = s.snd.streams.map Send.Hist.r ∧
      s'.rcv = s.rcv := by
  obtain ⟨m, hm, hi⟩ := reached_inv hr
  rcases step_inv hm hi (.raiseConn L) trivial with ⟨s', e, _⟩ | ⟨⟨_, _, x⟩, _⟩
  · refine ⟨s', e, ?_⟩
    simp only [Sys.step, if_pos hL, Sys.onSnd] at e
    split at e
    · cases e
    · rename_i c hc
      cases e
      simp only [Send.Conn.step] at hc
      split at hc
      · cases hc
        exact ⟨by simp only; omega, rfl, rfl⟩
      · simp only [Except.bind_eq_ok] at hc
        obtain ⟨st, e1, e2⟩ := hc
        cases e2
        exact ⟨by simp only; omega, raiseAll_recs e1, rfl⟩
  · cases x

theorem written_of_recs {s s' : Sys} (h : s'.snd.streams.map Send.Hist.r = s.snd.streams.map Send.Hist.r) (k : Nat) :
    s'.written k = s.written k := by
  have h1 : (s'.snd.streams.map Send.Hist.r)[k]? = (s.snd.streams.map Send.Hist.r)[k]? := by rw [h]
  simp only [List.getElem?_map] at h1
  have e : ∀ x : Sys, x.written k = ((x.snd.streams[k]?.map Send.Hist.r).map Send.Rec.written).getD [] := by
    intro x; unfold Sys.written; rw [Option.map_map]; rfl
  rw [e, e, h1]

/-- When everything that was written has been read, nothing is unread and what was used is what was
written. -/
theorem all_read {m : Nat} {s : Sys} (hm : m ≤ maxVarint) (hi : SInv m s) (hall : ∀ j, s.read j = s.written j) :
    s.used = s.total ∧ s.unread = 0 := by
  have hs := hi.sok hm
  have key : ∀ (j : Nat) t h, s.rcv.streams[j]? = some t → s.snd.streams[j]? = some h →
      t.hi = h.r.written.length ∧ t.outstanding = 0 := by
    intro j t h ht hh
    obtain ⟨t', ar, w1, w2⟩ := hi.entry hh
    rw [ht] at w1; cases w1
    have p := (hi.pair j h t ar hh ht w2).hi
    have so := hs.ok.str t (List.mem_of_getElem? ht)
    have q := so.len
    have r := hall j
    rw [read_eq hi ht] at r
    have r' : s.written j = h.r.written := by unfold Sys.written; rw [hh]; rfl
    rw [r'] at r
    rw [r] at q
    refine ⟨by omega, ?_⟩
    have st := so.st
    unfold RecvS.Tr.outstanding
    rw [r]
    cases hst : t.st with
    | sizeKnownAt fc buf e fs rel =>
      rw [hst] at st
      obtain ⟨_, _, _, _, h5, _⟩ := st
      simp only; omega
    | recv => simp only; omega
    | sizeKnown => simp only; omega
    | dataRecvd => simp only; omega
    | _ => rfl
  have hlen := hi.len
  constructor
  · unfold Sys.used Sys.total
    congr 1
    apply List.ext_getElem?
    intro j
    simp only [List.getElem?_map]
    by_cases hj : j < s.rcv.streams.length
    · rw [List.getElem?_eq_getElem hj, List.getElem?_eq_getElem (show j < s.snd.streams.length by omega)]
      simp only [Option.map_some]
      rw [(key j _ _ (List.getElem?_eq_getElem hj) (List.getElem?_eq_getElem (by omega))).1]
    · rw [List.getElem?_eq_none (by omega), List.getElem?_eq_none (by omega)]
      rfl
  · unfold Sys.unread
    have : s.rcv.streams.map RecvS.Tr.outstanding = List.replicate s.rcv.streams.length 0 := by
      apply List.ext_getElem?
      intro j
      simp only [List.getElem?_map, List.getElem?_replicate]
      by_cases hj : j < s.rcv.streams.length
      · rw [List.getElem?_eq_getElem hj, if_pos hj]
        simp only [Option.map_some]
        rw [(key j _ _ (List.getElem?_eq_getElem hj) (List.getElem?_eq_getElem (by omega))).2]
      · rw [List.getElem?_eq_none (by omega), if_neg hj]
        rfl
    rw [this, List.sum_replicate_nat, Nat.mul_zero]

/-- Two endpoints cannot be stuck with everything read and nothing allowed: one packet with both
limits lets the writer go on, on the stream and on the connection. -/
theorem C97_no_deadlock {s : Sys} (hr : Reached s) {k W : Nat} (hw : s.window k = some W) (hW : 0 < W) (hC : 0 < s.connWindow)
    (hall : ∀ j, s.read j = s.written j) (hmax : s.total < 2 ^ 62 - 1) (now rtt : Nat) :
    ∃ s1 L s2 s3 l s4, s.step (.maxDataWrite true now rtt) = .ok s1 ∧ L ∈ s1.rcv.advertised ∧ s1.step (.raiseConn L) = .ok s2 ∧
      s2.step (.recv k (.write true now rtt)) = .ok s3 ∧ l ∈ s3.announced k ∧ s3.step (.raise k l) = .ok s4 ∧
      (∀ j, s4.written j = s.written j) ∧ (s.written k).length < s4.knownLimit k ∧ s.total < s4.snd.limit := by
  obtain ⟨m, hm, hi⟩ := reached_inv hr
  obtain ⟨q1, q2⟩ := all_read hm hi hall
  obtain ⟨h1, h2, h3, h4⟩ := at_conn hm hi
  have hstep : ∃ s1 L, s.step (.maxDataWrite true now rtt) = .ok s1 ∧ L ∈ s1.rcv.advertised ∧ s1.snd = s.snd ∧
      s1.rcv.streams = s.rcv.streams ∧ s.total < L := by
    rcases C97_connection_window_open_or_raised hr h3 now rtt with h | h | ⟨s', l', e1, e2, e3, e4⟩
    · obtain ⟨s', e1, e2, e3, e4⟩ := write_conn_grows h1 now rtt
      have := h1.ret; have := h1.con
      exact ⟨s', _, e1, e3 _ (List.mem_of_mem_head? h3), e2, e4, by omega⟩
    · obtain ⟨s', e1, e2, e3, e4⟩ := write_conn_grows h1 now rtt
      exact ⟨s', _, e1, e3 _ (List.mem_of_mem_head? h3), e2, e4, by omega⟩
    · obtain ⟨s1, f1, f2, _, f4⟩ := write_conn_grows h1 now rtt
      rw [e1] at f1; cases f1
      exact ⟨s', l', e1, by rw [e2]; simp, f2, f4, by omega⟩
  obtain ⟨s1, L, a1, a2, a3, a4, a5⟩ := hstep
  have hr1 := reached_step hr (ev := .maxDataWrite true now rtt) trivial a1
  obtain ⟨s2, b1, b2, b3, b4⟩ := raiseConn_known hr1 a2
  have hr2 := reached_step hr1 (ev := .raiseConn L) trivial b1
  have hwr : ∀ j, s2.written j = s.written j := by
    intro j
    rw [written_of_recs b3 j]
    unfold Sys.written
    rw [a3]
  have hw2 : s2.window k = some W := by
    unfold Sys.window; rw [b4, a4]; exact hw
  have hrd : s2.read k = s2.written k := by
    obtain ⟨m2, hm2, hi2⟩ := reached_inv hr2
    obtain ⟨t, fc, buf, ht, hst, _⟩ := window_some hw
    rw [hwr k, ← hall k, read_eq hi ht, read_eq hi2 (k := k) (t := t) (by rw [b4, a4]; exact ht)]
  obtain ⟨s3, l, s4, c1, c2, c3, c4, c5⟩ := C97_reader_that_caught_up_gives_credit hr2 hw2 hrd now rtt
  have hk : (s.written k).length ≤ s.total := by
    unfold Sys.written Sys.total
    cases hg : s.snd.streams[k]? with
    | none => simp
    | some h =>
      simp only [Option.map_some, Option.getD_some]
      exact le_sum_of (List.mem_map.mpr ⟨h, List.mem_of_getElem? hg, rfl⟩)
  have g3 := (announced_grows c1).2
  have hlast : s4.snd.limit = s3.snd.limit ∧ ∀ j, s4.written j = s3.written j := by
    simp only [Sys.step, if_pos c2, Sys.onSnd] at c3
    split at c3
    · cases c3
    · rename_i c hc
      cases c3
      simp only [Send.Conn.step] at hc
      split at hc
      · cases hc; exact ⟨rfl, fun _ => rfl⟩
      · rename_i h hh
        simp only [Send.Hist.step, Except.bind_eq_ok] at hc
        obtain ⟨⟨h', fc', o⟩, ⟨x1, _, e2⟩, e3⟩ := hc
        cases e2
        cases e3
        refine ⟨rfl, fun j => ?_⟩
        unfold Sys.written
        by_cases hjk : k = j
        · subst hjk
          simp only [List.getElem?_set_self (List.getElem?_eq_some_iff.mp hh).1, hh, Option.map_some]
        · simp only [List.getElem?_set_ne hjk]
  have hw3 : ∀ j, s3.written j = s2.written j := by intro j; unfold Sys.written; rw [g3]
  refine ⟨s1, L, s2, s3, l, s4, a1, a2, b1, c1, c2, c3, fun j => by rw [hlast.2 j, hw3 j, hwr j], ?_, ?_⟩
  · rw [hwr k] at c5
    omega
  · rw [hlast.1, g3]; omega

/-! ## Examples -/

/-- Eight of ten bytes were sent and read, and no update went out yet. -/
def used8 : List Ev :=
  [.opens 0 10 10, .send 0 (.write [1, 2, 3, 4, 5, 6, 7, 8] false), .send 0 (.frames 0 100 0), .arrive 0 0, .recv 0 (.read 10)]

/-- The window is not open enough, so that the next packet raises the limit; the connection's window
is open. -/
example : ∃ s, Reached s ∧ decide (s.window 0 = some 10 ∧ (s.announced 0).head? = some 10 ∧ s.read 0 = s.written 0 ∧
    (s.read 0).length = 8 ∧ s.connWindow = 20 ∧ s.used = 8 ∧ s.unread = 0 ∧ s.rcv.advertised.head? = some 20) = true :=
  reached_of (m0 := 20) (m := 20) (evs := used8) (by decide) (by decide) (by simp [used8]) (by decide +kernel)

/-- Everything was written, sent, read, and both limits are used up. -/
def stuck : List Ev :=
  [.opens 0 8 8, .send 0 (.write [1, 2, 3, 4, 5, 6, 7, 8, 9] false), .send 0 (.frames 0 100 0), .arrive 0 0, .recv 0 (.read 10)]

example : ∃ s, Reached s ∧ decide (s.window 0 = some 8 ∧ s.connWindow = 8 ∧ s.read 0 = s.written 0 ∧ s.total = 8 ∧
    s.knownLimit 0 = 8 ∧ s.snd.limit = 8 ∧ s.snd.streams.length = 1) = true :=
  reached_of (m0 := 8) (m := 8) (evs := stuck) (by decide) (by decide) (by simp [stuck]) (by decide +kernel)

/-- A writer that has used its limit up says so. -/
example : ∃ s, Reached s ∧ (match s.snd.streams[0]? with
    | some h => decide (Send.Frame.blocked 8 ∈ h.r.frames ∧ s.window 0 = some 8 ∧ (s.announced 0).head? = some 8 ∧
        (s.read 0).length = 1)
    | none => false) = true :=
  reached_of (m0 := 80) (m := 80) (evs := [.opens 0 8 8, .send 0 (.write [1, 2, 3, 4, 5, 6, 7, 8] false),
    .send 0 (.frames 0 100 0), .send 0 (.frames 0 100 0), .arrive 0 0, .recv 0 (.read 1)]) (by decide) (by decide) (by simp) (by decide +kernel)

end Neqo.E2E
