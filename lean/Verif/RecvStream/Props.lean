import Verif.RecvStream.ConnInv

/-!
# Receive-stream properties: C05 (stream level), C08, C09, C10, C11, C12 (connection level)

Every theorem quantifies over an arbitrary history `ops` of a connection with any number of
streams, starting from a fresh connection with connection-level limit `m`.
-/
namespace Neqo.RecvS
open Neqo.Codec (Bytes)
open Neqo.Flow (RFc)
open Neqo.Recv (Rcv Inv Rx)

/-! ## Linking the record kept in `Tr` to what reads returned -/

theorem ended_step {t : Tr} {ses : RFc} (h : t.st.isEnded = true) {op : Op} {r : Tr × RFc × Out}
    (hs : t.step ses op = .ok r) : r.1 = t ∧ r.2.1 = ses ∧ ((∃ n, op = .read n) → r.2.2 = .noMoreData) := by
  obtain ⟨st, adv, frames, ends, hi, delivered, finSeen⟩ := t
  cases st with
  | dataRead a b =>
    cases op with
    | reset err fs rel =>
      simp only [Tr.step, State.reset] at hs
      split at hs
      · cases hs
      · cases hs; exact ⟨rfl, rfl, by simp⟩
    | _ => cases hs; exact ⟨rfl, rfl, by simp⟩
  | resetRecvd a b =>
    cases op with
    | reset err fs rel =>
      simp only [Tr.step, State.reset] at hs
      split at hs
      · cases hs
      · cases hs; exact ⟨rfl, rfl, by simp⟩
    | _ => cases hs; exact ⟨rfl, rfl, by simp⟩
  | _ => cases h

theorem step_delivered {t t' : Tr} {ses ses' : RFc} {op : Op} {o : Out}
    (hs : t.step ses op = .ok (t', ses', o)) :
    t'.delivered = t.delivered ++ (match op, o with | .read _, .data b _ => b | _, _ => []) ∧
    t'.finSeen = (t.finSeen || (match op, o with | .read _, .data _ f => f | _, _ => false)) := by
  have hn : ∀ f e, (t.note f e).delivered = t.delivered ∧ (t.note f e).finSeen = t.finSeen := by
    intro f e; unfold Tr.note; split <;> exact ⟨rfl, rfl⟩
  cases op with
  | frame fin off d =>
    simp only [Tr.step, Except.bind_eq_ok, Except.pure_eq_ok] at hs
    obtain ⟨_, _, hs⟩ := hs
    cases hs
    have : ∀ t : Tr, (t.noteFrame off d).delivered = t.delivered ∧
        (t.noteFrame off d).finSeen = t.finSeen := by
      intro t; unfold Tr.noteFrame; split <;> exact ⟨rfl, rfl⟩
    simp only [this, hn]
    simp
  | reset err fs rel =>
    simp only [Tr.step, Except.bind_eq_ok, Except.pure_eq_ok] at hs
    obtain ⟨_, _, hs⟩ := hs
    cases hs
    simp [hn]
  | read n =>
    simp only [Tr.step] at hs
    split at hs <;> first | (cases hs; simp) | cases hs
  | stopSending err =>
    simp only [Tr.step, Except.bind_eq_ok, Except.pure_eq_ok] at hs
    obtain ⟨_, _, hs⟩ := hs
    cases hs
    simp
  | write fits now rtt =>
    simp only [Tr.step, Except.bind_eq_ok, Except.pure_eq_ok] at hs
    obtain ⟨_, _, hs⟩ := hs
    cases hs
    simp
  | _ => cases hs; simp

theorem getElem?_set' {l : List Tr} {i j : Nat} {t t' : Tr} (h : l[j]? = some t) :
    (l.set j t')[i]? = if j = i then some t' else l[i]? := by
  rw [List.getElem?_set]
  have hlt := (List.getElem?_eq_some_iff.mp h).1
  split
  · rename_i heq
    subst heq
    simp [hlt]
  · rfl

/-- Where stream `i` stands after one step. -/
theorem cstep_stream {c c' : Conn} {op : COp} {o : Out} (i : Nat) (hs : c.step op = .ok (c', o)) :
    (∃ op' t t' ses', op = .onStream i op' ∧ c.streams[i]? = some t ∧ c'.streams[i]? = some t' ∧
      t.step c.ses op' = .ok (t', ses', o)) ∨
    ((∀ op', op = .onStream i op' → c.streams[i]? = none ∧ o = .nothing) ∧
      (c'.streams[i]? = c.streams[i]? ∨
        (c.streams[i]? = none ∧ ∃ m, c'.streams[i]? = some (Tr.new m)))) := by
  cases op with
  | newStream m =>
    cases hs
    refine .inr ⟨by simp, ?_⟩
    simp only [List.getElem?_append]
    by_cases hlt : i < c.streams.length
    · simp [hlt]
    · simp only [hlt, if_false]
      have : c.streams[i]? = none := List.getElem?_eq_none (by omega)
      rw [this]
      by_cases h0 : i - c.streams.length = 0
      · right; rw [h0]; exact ⟨rfl, m, rfl⟩
      · left; rw [List.getElem?_eq_none]; simp; omega
  | onStream j op' =>
    simp only [Conn.step] at hs
    split at hs
    · rename_i hnone
      cases hs
      refine .inr ⟨?_, .inl rfl⟩
      rintro op'' h
      cases h
      exact ⟨hnone, rfl⟩
    · rename_i t ht
      simp only [Except.bind_eq_ok, Except.pure_eq_ok] at hs
      obtain ⟨⟨t', ses', o'⟩, hstep, hs⟩ := hs
      cases hs
      by_cases hji : j = i
      · subst hji
        exact .inl ⟨op', t, t', ses', rfl, ht, by simp only; rw [getElem?_set' ht]; simp, hstep⟩
      · refine .inr ⟨?_, .inl (by simp only; rw [getElem?_set' ht, if_neg hji])⟩
        rintro op'' h
        cases h
        exact absurd rfl hji
  | write fits now rtt =>
    simp only [Conn.step, Except.bind_eq_ok, Except.pure_eq_ok] at hs
    obtain ⟨⟨ses', l⟩, hw, hs⟩ := hs
    cases hs
    exact .inr ⟨by simp, .inl rfl⟩
  | maxDataLost l => cases hs; exact .inr ⟨by simp, .inl rfl⟩
  | peerBlocked => cases hs; exact .inr ⟨by simp, .inl rfl⟩

def deliveredAt (c : Conn) (i : Nat) : Bytes := (c.streams[i]?.map Tr.delivered).getD []

theorem readsOf_skip {i : Nat} {op : COp} {o : Out} {ops : List COp} {os : List Out}
    (h : ∀ n, op ≠ .onStream i (.read n)) : readsOf i (op :: ops) (o :: os) = readsOf i ops os := by
  cases op with
  | onStream j op' =>
    cases op' with
    | read n =>
      have : j ≠ i := by rintro rfl; exact h n rfl
      simp [readsOf, this]
    | _ => simp [readsOf]
  | _ => simp [readsOf]

theorem readsOf_read {i n : Nat} {o : Out} {ops : List COp} {os : List Out} :
    readsOf i (.onStream i (.read n) :: ops) (o :: os) = o :: readsOf i ops os := by
  simp [readsOf]

/-- The bytes recorded as delivered are exactly the bytes returned by the reads. -/
theorem delivered_eq {c c' : Conn} {ops : List COp} {os : List Out} (i : Nat)
    (hr : c.run ops = .ok (c', os)) :
    deliveredAt c' i = deliveredAt c i ++ bytesOf (readsOf i ops os) := by
  induction ops generalizing c os with
  | nil => cases hr; simp [readsOf, bytesOf]
  | cons op ops ih =>
    simp only [Conn.run, Except.bind_eq_ok, Except.pure_eq_ok] at hr
    obtain ⟨⟨c1, o⟩, h1, ⟨c2, os2⟩, h2, hr⟩ := hr
    cases hr
    rw [ih h2]
    rcases cstep_stream i h1 with ⟨op', t, t', ses', rfl, ht, ht', hstep⟩ | ⟨hno, hsame⟩
    · have hd := (step_delivered hstep).1
      have e1 : deliveredAt c1 i = t'.delivered := by simp [deliveredAt, ht']
      have e2 : deliveredAt c i = t.delivered := by simp [deliveredAt, ht]
      rw [e1, e2, hd]
      cases op' with
      | read n =>
        rw [readsOf_read]
        cases o <;> simp [bytesOf]
      | _ => rw [readsOf_skip (by simp)]; simp
    · have e1 : deliveredAt c1 i = deliveredAt c i := by
        rcases hsame with h | ⟨h, m, h'⟩
        · simp [deliveredAt, h]
        · simp [deliveredAt, h, h', Tr.new]
      rw [e1]
      by_cases hread : ∃ n, op = .onStream i (.read n)
      · obtain ⟨n, rfl⟩ := hread
        obtain ⟨_, rfl⟩ := hno _ rfl
        rw [readsOf_read]
        simp [bytesOf]
      · rw [readsOf_skip (fun n h => hread ⟨n, h⟩)]

/-! ## C05 -/

/-- C05, stream level: whatever the application has read from stream `i` is, byte for byte, what
accepted STREAM frames carried at those offsets. -/
theorem C05_stream_reads_carried_bytes {m : Nat} {ops : List COp} {c : Conn} {os : List Out}
    (hr : (Conn.new m).run ops = .ok (c, os)) (i : Nat) (k : Nat) (b : UInt8)
    (hb : (bytesOf (readsOf i ops os))[k]? = some b) :
    ∃ t, c.streams[i]? = some t ∧ t.Carried k b := by
  have h := delivered_eq i hr
  have e0 : deliveredAt (Conn.new m) i = [] := by simp [deliveredAt, Conn.new]
  rw [e0, List.nil_append] at h
  rw [← h] at hb
  cases ht : c.streams[i]? with
  | none => simp [deliveredAt, ht] at hb
  | some t =>
    refine ⟨t, rfl, ?_⟩
    have e1 : deliveredAt c i = t.delivered := by simp [deliveredAt, ht]
    rw [e1] at hb
    have := ((run_ok hr).str t (List.mem_of_getElem? ht)).ok k b hb
    rw [Nat.zero_add] at this
    exact this

/-! ## C08 -/

theorem addRetired_error {n : Nat} {s : RFc} {e : Err} (h : s.addRetired n = .error e) : e = .panic := by
  unfold RFc.addRetired at h
  split at h
  · simp only at h
    split at h
    · rename_i hu
      cases h
      unfold RFc.shouldSendUpdate at hu
      split at hu
      · cases hu; rfl
      · cases hu
    · cases h
  · cases h; rfl

theorem retireData_error {n : Nat} {fc ses : RFc} {e : Err} (h : retireData n fc ses = .error e) :
    e = .panic := by
  unfold retireData at h
  split at h
  · simp only [Except.bind_eq_error] at h
    rcases h with h | ⟨_, _, h | ⟨_, _, h⟩⟩
    · exact addRetired_error h
    · exact addRetired_error h
    · cases h
  · cases h

theorem finSeen_spec {t : Tr} (h : StrOk t) (hf : t.finSeen = true) :
    t.st.isEnded = true ∧ t.delivered.length = t.hi ∧ Ends t.hi t.ends := by
  obtain ⟨st, adv, frames, ends, hi, delivered, finSeen⟩ := t
  simp only at hf
  subst hf
  have hst := h.st
  cases st with
  | dataRead a b => exact ⟨rfl, hst rfl⟩
  | recv fc buf => exact absurd hst.2.2.2.2.1 (by simp)
  | sizeKnown fc buf => exact absurd hst.2.2.2.2.1 (by simp)
  | dataRecvd fc buf => exact absurd hst.2.2.2.2.1 (by simp)
  | sizeKnownAt fc buf e fs rel => exact absurd hst.2.2.2.2.2.2.2.1 (by simp)
  | abortReading fc fsr fn e a b => exact absurd hst.2.2.1 (by simp)
  | waitForReset fc a b => exact absurd hst.2.2 (by simp)
  | resetRecvd a b => exact absurd hst (by simp [StOk])

theorem ended_run {c c' : Conn} {ops : List COp} {os : List Out} {i : Nat} {t : Tr}
    (ht : c.streams[i]? = some t) (hend : t.st.isEnded = true) (hr : c.run ops = .ok (c', os)) :
    c'.streams[i]? = some t ∧ ∀ o ∈ readsOf i ops os, o = .noMoreData := by
  induction ops generalizing c os with
  | nil => cases hr; exact ⟨ht, by simp [readsOf]⟩
  | cons op ops ih =>
    simp only [Conn.run, Except.bind_eq_ok, Except.pure_eq_ok] at hr
    obtain ⟨⟨c1, o⟩, h1, ⟨c2, os2⟩, h2, hr⟩ := hr
    cases hr
    rcases cstep_stream i h1 with ⟨op', t1, t', ses', rfl, ht1, ht', hstep⟩ | ⟨hno, hsame⟩
    · rw [ht] at ht1
      cases ht1
      obtain ⟨g1, g2, g3⟩ := ended_step hend hstep
      simp only at g1 g3
      subst g1
      obtain ⟨k1, k2⟩ := ih ht' h2
      refine ⟨k1, ?_⟩
      cases op' with
      | read n =>
        rw [readsOf_read]
        intro x hx
        rcases List.mem_cons.mp hx with rfl | hx
        · exact g3 ⟨n, rfl⟩
        · exact k2 x hx
      | _ => rw [readsOf_skip (by simp)]; exact k2
    · have ht1 : c1.streams[i]? = some t := by
        rcases hsame with h | ⟨h, _⟩
        · rw [h]; exact ht
        · rw [h] at ht; cases ht
      obtain ⟨k1, k2⟩ := ih ht1 h2
      refine ⟨k1, ?_⟩
      rw [readsOf_skip]
      · exact k2
      · rintro n rfl
        have := (hno _ rfl).1
        rw [this] at ht; cases ht

theorem fin_run {c c' : Conn} {ops : List COp} {os : List Out} {i : Nat} (hc : COk c)
    (hr : c.run ops = .ok (c', os)) {pre post : List Out} {b : Bytes}
    (hreads : readsOf i ops os = pre ++ .data b true :: post) :
    (∀ o ∈ post, o = .noMoreData) ∧
    ∃ t, c'.streams[i]? = some t ∧ t.finSeen = true ∧
      t.delivered = deliveredAt c i ++ bytesOf pre ++ b := by
  induction ops generalizing c os pre with
  | nil =>
    cases hr
    simp [readsOf] at hreads
  | cons op ops ih =>
    simp only [Conn.run, Except.bind_eq_ok, Except.pure_eq_ok] at hr
    obtain ⟨⟨c1, o⟩, h1, ⟨c2, os2⟩, h2, hr⟩ := hr
    cases hr
    have hc1 := cstep_ok hc h1
    have hdel := delivered_eq (ops := [op]) (os := [o]) (c := c) (c' := c1) i
      (by simp [Conn.run, h1, bind, Except.bind, pure, Except.pure])
    by_cases hread : ∃ n, op = .onStream i (.read n)
    · obtain ⟨n, rfl⟩ := hread
      rw [readsOf_read] at hreads
      have hone : readsOf i [.onStream i (.read n)] [o] = [o] := by
        rw [readsOf_read]; rfl
      rw [hone] at hdel
      cases pre with
      | nil =>
        simp only [List.nil_append, List.cons.injEq] at hreads
        obtain ⟨rfl, hpost⟩ := hreads
        rcases cstep_stream i h1 with ⟨op', t1, t', ses', he, ht1, ht', hstep⟩ | ⟨hno, _⟩
        · cases he
          have hf := (step_delivered hstep).2
          simp only [Bool.or_true] at hf
          have hstr := hc1.str t' (List.mem_of_getElem? ht')
          obtain ⟨e1, _, _⟩ := finSeen_spec hstr hf
          obtain ⟨k1, k2⟩ := ended_run ht' e1 h2
          refine ⟨by rw [← hpost]; exact k2, t', k1, hf, ?_⟩
          have : deliveredAt c1 i = t'.delivered := by simp [deliveredAt, ht']
          rw [this] at hdel
          rw [hdel]
          simp [bytesOf]
        · exact absurd (hno _ rfl).2 (by simp)
      | cons p pre =>
        simp only [List.cons_append, List.cons.injEq] at hreads
        obtain ⟨rfl, hrest⟩ := hreads
        obtain ⟨k1, t, k2, k3, k4⟩ := ih hc1 h2 hrest
        refine ⟨k1, t, k2, k3, ?_⟩
        rw [k4, hdel]
        cases o <;> simp [bytesOf]
    · have hskip : ∀ n, op ≠ .onStream i (.read n) := fun n h => hread ⟨n, h⟩
      rw [readsOf_skip hskip] at hreads
      rw [readsOf_skip hskip] at hdel
      obtain ⟨k1, t, k2, k3, k4⟩ := ih hc1 h2 hreads
      refine ⟨k1, t, k2, k3, ?_⟩
      rw [k4, hdel]
      simp [readsOf, bytesOf]

/-- C08: a read reports fin only after all bytes up to the final size have been returned — the
number of bytes returned so far is the (only) final size the peer announced — and every later
read of that stream fails with no-more-data. -/
theorem C08_fin_is_end_and_last {m : Nat} {ops : List COp} {c : Conn} {os : List Out}
    (hr : (Conn.new m).run ops = .ok (c, os)) (i : Nat) {pre post : List Out} {b : Bytes}
    (hreads : readsOf i ops os = pre ++ .data b true :: post) :
    (∀ o ∈ post, o = .noMoreData) ∧
    ∃ t, c.streams[i]? = some t ∧ t.ends ≠ [] ∧
      ∀ e ∈ t.ends, e = (bytesOf (pre ++ [.data b true])).length := by
  obtain ⟨h1, t, ht, hf, hd⟩ := fin_run (cok_new m) hr hreads
  refine ⟨h1, t, ht, ?_⟩
  obtain ⟨_, e2, e3⟩ := finSeen_spec ((run_ok hr).str t (List.mem_of_getElem? ht)) hf
  have e0 : deliveredAt (Conn.new m) i = [] := by simp [deliveredAt, Conn.new]
  have hb : ∀ p : List Out, bytesOf (p ++ [.data b true]) = bytesOf p ++ b := by
    intro p
    induction p with
    | nil => simp [bytesOf]
    | cons x p ih => cases x <;> simp [bytesOf, ih]
  rw [e0, List.nil_append] at hd
  refine ⟨e3.ne, fun e he => ?_⟩
  rw [e3.eq e he, ← e2, hd, hb]

/-- C08: fin is reported at most once per stream. -/
theorem C08_fin_at_most_once {m : Nat} {ops : List COp} {c : Conn} {os : List Out}
    (hr : (Conn.new m).run ops = .ok (c, os)) (i : Nat) {pre post : List Out} {b : Bytes}
    (hreads : readsOf i ops os = pre ++ .data b true :: post) :
    ∀ b', Out.data b' true ∉ pre ∧ Out.data b' true ∉ post := by
  intro b'
  constructor
  · intro hmem
    obtain ⟨p1, p2, rfl⟩ := List.append_of_mem hmem
    rw [List.append_assoc, List.cons_append] at hreads
    have := (fin_run (cok_new m) hr hreads).1 (.data b true) (by simp)
    cases this
  · intro hmem
    have := (fin_run (cok_new m) hr hreads).1 _ hmem
    cases this

/-- C08: once the end has been announced and every byte has arrived, a read with enough room
returns the rest and reports fin. -/
theorem C08_fin_is_reported {m : Nat} {ops : List COp} {c : Conn} {os : List Out}
    (hm : m ≤ 2 ^ 62 - 1) (hsane : SaneRun (Conn.new m) ops)
    (hr : (Conn.new m).run ops = .ok (c, os)) {i : Nat} {t : Tr} (ht : c.streams[i]? = some t)
    (hact : t.Active) {e : Nat} (he : e ∈ t.ends) (hall : ∀ k, k < e → ∃ b, t.Carried k b) {n : Nat}
    (hn : e ≤ t.delivered.length + n) :
    ∃ c' out, c.step (.onStream i (.read n)) = .ok (c', .data out true) := by
  have hfit := (sok_run (sok_new hm) hsane hr).fit (List.mem_of_getElem? ht)
  have hst := hfit.str.st
  have htop := hfit.str.top
  obtain ⟨fc, buf, hs⟩ : ∃ fc buf, t.st = .dataRecvd fc buf := by
    rcases hact with ⟨fc, buf, hs⟩ | ⟨fc, buf, hs⟩ | h
    · rw [hs] at hst
      obtain ⟨-, -, -, -, -, h⟩ := hst
      rw [h] at he; cases he
    · rw [hs] at hst
      obtain ⟨-, -, -, -, -, h, j, hj, hno⟩ := hst
      rw [h.eq e he] at hall
      exact absurd (hall j hj) hno
    · exact h
  obtain ⟨⟨t', ses', o⟩, hstep⟩ := local_succeeds (op := .read n) hfit ⟨by simp, by simp⟩
  refine ⟨{ c with ses := ses', streams := c.streams.set i t' }, ?_⟩
  suffices ∃ out, o = .data out true by
    obtain ⟨out, rfl⟩ := this
    exact ⟨out, by simp [Conn.step, ht, hstep, bind, Except.bind, pure, Except.pure]⟩
  rw [hs] at hst
  obtain ⟨-, hinv, hdl, hret, -, hends, hc⟩ := hst
  obtain ⟨b2, o2, he2, h1, h2, h3, h4, h5⟩ := Recv.read_inv hinv n
  have he' := hends.eq e he
  have hnil : b2.ranges = [] := by
    cases hrg : b2.ranges with
    | nil => rfl
    | cons x xs =>
      exfalso
      -- a remaining range starts at or after `retired` and its last byte was carried
      have hlive := h1.live x (by rw [hrg]; simp)
      have hpos := List.length_pos_iff.mpr hlive.1
      have hlast : Recv.Cov b2.ranges (Recv.rend x - 1) :=
        ⟨x, by rw [hrg]; simp, by unfold Recv.rend; omega, by unfold Recv.rend; omega⟩
      obtain ⟨bb, hbb⟩ := (h1.cover _ (by have := hlive.2; omega)).mpr hlast
      have hltop := htop _ _ hbb
      by_cases hlt : o2.length < n
      · exact h5 hlt (hc _ (by have := hlive.2; omega))
      · have := hlive.2; omega
  obtain ⟨k, hk, hk0⟩ := buffered_spec h1
  rw [hk0.mpr hnil] at hk
  simp only [Tr.step, hs, State.read, he2, bind, Except.bind] at hstep
  cases hrd : retireData o2.length fc c.ses with
  | error er =>
    have hne := retireData_error hrd
    subst hne
    rw [hrd] at hstep
    cases hstep
  | ok r =>
    rw [hrd] at hstep
    simp only [hk, if_true] at hstep
    cases hstep
    exact ⟨_, rfl⟩

/-! ## C09 -/

/-- C09, as far as the implementation goes: once a final size `e` has been announced on a stream
that has not ended and is not waiting for a reset, a STREAM frame with data beyond `e` or with FIN
at another offset, and a reset with another final size, are refused with a final-size error.
Missing: streams waiting for a reset — see `C09_waiting_stream_accepts_second_size`. -/
theorem C09_conflicting_frames_refused_partial {m : Nat} {ops : List COp} {c : Conn} {os : List Out}
    (hr : (Conn.new m).run ops = .ok (c, os)) {i : Nat} {t : Tr} (ht : c.streams[i]? = some t)
    (hend : t.st.isEnded = false) (hw : ¬ t.Waiting) {e : Nat} (he : e ∈ t.ends) :
    (∀ fin off d, e < off + d.length ∨ (fin = true ∧ off + d.length ≠ e) →
      c.step (.onStream i (.frame fin off d)) = .error .finalSize) ∧
    (∀ err fs rel, fs ≠ e → rel ≤ fs → c.step (.onStream i (.reset err fs rel)) = .error .finalSize) := by
  have hstr := (run_ok hr).str t (List.mem_of_getElem? ht)
  have hst := hstr.st
  have hk : t.st.known = true ∧ e = t.hi := by
    obtain ⟨st, adv, frames, ends, hi, delivered, finSeen⟩ := t
    simp only at hst he hend ⊢
    cases st with
    | recv fc buf =>
      obtain ⟨-, -, -, -, -, h⟩ := hst
      rw [h] at he; cases he
    | sizeKnown fc buf =>
      obtain ⟨-, -, -, -, -, h, -⟩ := hst
      exact ⟨rfl, h.eq e he⟩
    | dataRecvd fc buf =>
      obtain ⟨-, -, -, -, -, h, -⟩ := hst
      exact ⟨rfl, h.eq e he⟩
    | sizeKnownAt fc buf er fs rel =>
      obtain ⟨-, -, -, -, -, -, -, -, h⟩ := hst
      exact ⟨rfl, h.eq e he⟩
    | abortReading fc fsr fn er a b =>
      obtain ⟨-, -, -, h⟩ := hst
      cases fsr with
      | true => exact ⟨rfl, h.eq e he⟩
      | false => simp only [Bool.false_eq_true, if_false] at h; rw [h] at he; cases he
    | waitForReset fc a b => exact absurd ⟨fc, a, b, rfl⟩ hw
    | dataRead a b => cases hend
    | resetRecvd a b => cases hend
  constructor
  · intro fin off d hbad
    have hf : finalSizeOk fin t.st.known (off + d.length) t.hi = false := by
      rw [hk.1]
      cases fin <;> simp [finalSizeOk] <;> simp at hbad <;> omega
    simp only [Conn.step, ht, Tr.step, State.inboundFrame, consumeData_final c.ses hstr hend hf, bind,
      Except.bind]
  · intro err fs rel hne hle
    have hf : finalSizeOk true t.st.known fs t.hi = false := by
      rw [hk.1]; simp [finalSizeOk]; omega
    simp only [Conn.step, ht, Tr.step, State.reset, consumeData_final c.ses hstr hend hf, bind,
      Except.bind]
    rw [if_neg (by omega)]

/-- C09: a final size below data already received is always refused (also on streams waiting for a
reset). -/
theorem C09_final_size_below_received_refused {m : Nat} {ops : List COp} {c : Conn} {os : List Out}
    (hr : (Conn.new m).run ops = .ok (c, os)) {i : Nat} {t : Tr} (ht : c.streams[i]? = some t)
    (hend : t.st.isEnded = false) :
    (∀ off d, off + d.length < t.hi → c.step (.onStream i (.frame true off d)) = .error .finalSize) ∧
    (∀ err fs rel, fs < t.hi → rel ≤ fs →
      c.step (.onStream i (.reset err fs rel)) = .error .finalSize) := by
  have hstr := (run_ok hr).str t (List.mem_of_getElem? ht)
  have hf : ∀ x, x < t.hi → finalSizeOk true t.st.known x t.hi = false := by
    intro x hx
    cases t.st.known <;> simp [finalSizeOk] <;> omega
  constructor
  · intro off d hbad
    simp only [Conn.step, ht, Tr.step, State.inboundFrame, consumeData_final c.ses hstr hend (hf _ hbad),
      bind, Except.bind]
  · intro err fs rel hne hle
    simp only [Conn.step, ht, Tr.step, State.reset, consumeData_final c.ses hstr hend (hf _ hne), bind,
      Except.bind]
    rw [if_neg (by omega)]

/-- C09: frames for a stream that has ended change nothing. -/
theorem C09_ended_stream_ignores_frames (t : Tr) (ses : RFc) (h : t.st.isEnded = true) :
    (∀ fin off d, t.step ses (.frame fin off d) = .ok (t, ses, .nothing)) ∧
    (∀ err fs rel, rel ≤ fs → t.step ses (.reset err fs rel) = .ok (t, ses, .nothing)) := by
  obtain ⟨st, adv, frames, ends, hi, delivered, finSeen⟩ := t
  cases st with
  | dataRead a b =>
    refine ⟨fun _ _ _ => rfl, fun err fs rel hle => ?_⟩
    simp only [Tr.step, State.reset]
    rw [if_neg (by omega)]; rfl
  | resetRecvd a b =>
    refine ⟨fun _ _ _ => rfl, fun err fs rel hle => ?_⟩
    simp only [Tr.step, State.reset]
    rw [if_neg (by omega)]; rfl
  | _ => cases h

/-- One final size, nothing beyond it, and none while waiting for a reset. -/
def OneSize (t : Tr) : Prop :=
  (t.ends = [] ∨ Ends t.hi t.ends) ∧ (t.Waiting → t.ends = [])

theorem oneSize_step {t t' : Tr} {ses ses' : RFc} {op : Op} {o : Out} (h : StrOk t) (h1 : OneSize t)
    (hop : ∀ off d, op = .frame true off d → ¬ t.Waiting)
    (hs : t.step ses op = .ok (t', ses', o)) : OneSize t' := by
  obtain ⟨h', -⟩ := step_ok h hs
  by_cases hend : t.st.isEnded = true
  · have he := (ended_step hend hs).1
    simp only at he
    rw [he]; exact h1
  have hnote : ∀ fin e, (t.note fin e).hi = max t.hi e ∧
      (t.note fin e).ends = if fin then e :: t.ends else t.ends := by
    intro fin e
    unfold Tr.note
    rw [if_neg hend]
    exact ⟨rfl, rfl⟩
  -- whether the new state determines the answer
  have hst' := h'.st
  by_cases hdet : t'.Waiting ∨ t'.st.isEnded = true
  rotate_left
  · refine ⟨?_, fun hw => absurd (.inl hw) hdet⟩
    obtain ⟨st, adv, frames, ends, hi, delivered, finSeen⟩ := t'
    simp only at hst' ⊢
    cases st with
    | recv fc buf => exact .inl hst'.2.2.2.2.2
    | sizeKnown fc buf => exact .inr hst'.2.2.2.2.2.1
    | dataRecvd fc buf => exact .inr hst'.2.2.2.2.2.1
    | sizeKnownAt fc buf er fs rel => exact .inr hst'.2.2.2.2.2.2.2.2
    | abortReading fc fsr fn er a b =>
      obtain ⟨-, -, -, h⟩ := hst'
      cases fsr with
      | true => exact .inr h
      | false => exact .inl h
    | waitForReset fc a b => exact absurd (.inl ⟨fc, a, b, rfl⟩) hdet
    | dataRead a b => exact absurd (.inr rfl) hdet
    | resetRecvd a b => exact absurd (.inr rfl) hdet
  · cases op with
    | frame fin off d =>
      simp only [Tr.step, Except.bind_eq_ok, Except.pure_eq_ok] at hs
      obtain ⟨⟨st2, ses2, evs⟩, hin, hs⟩ := hs
      cases hs
      simp only [State.inboundFrame, Except.bind_eq_ok, Except.pure_eq_ok] at hin
      obtain ⟨⟨st1, ses1⟩, hc, st2', hd, hin⟩ := hin
      cases hin
      have hnf : ∀ t : Tr, (t.noteFrame off d).hi = t.hi ∧ (t.noteFrame off d).ends = t.ends := by
        intro t; unfold Tr.noteFrame; split <;> exact ⟨rfl, rfl⟩
      obtain ⟨st, adv, frames, ends, hi, delivered, finSeen⟩ := t
      simp only at hend
      simp only [Tr.Waiting] at hdet
      cases st with
      | recv fc buf =>
        exfalso
        simp only [State.consumeData, Except.bind_eq_ok, Except.pure_eq_ok] at hc
        obtain ⟨_, hc, hc1⟩ := hc
        cases hc1
        simp only [State.deliver, Except.bind_eq_ok] at hd
        obtain ⟨_, _, hd⟩ := hd
        split at hd
        · split at hd <;> cases hd <;> simp [State.isEnded] at hdet
        · cases hd; simp [State.isEnded] at hdet
      | sizeKnown fc buf =>
        exfalso
        simp only [State.consumeData, Except.bind_eq_ok, Except.pure_eq_ok] at hc
        obtain ⟨_, hc, hc1⟩ := hc
        cases hc1
        simp only [State.deliver, Except.bind_eq_ok] at hd
        obtain ⟨_, _, hd⟩ := hd
        split at hd <;> cases hd <;> simp [State.isEnded] at hdet
      | dataRecvd fc buf =>
        exfalso
        simp only [State.consumeData, Except.bind_eq_ok, Except.pure_eq_ok] at hc
        obtain ⟨_, hc, hc1⟩ := hc
        cases hc1
        cases hd; simp [State.isEnded] at hdet
      | sizeKnownAt fc buf er fs rel =>
        exfalso
        simp only [State.consumeData, Except.bind_eq_ok, Except.pure_eq_ok] at hc
        obtain ⟨_, hc, hc1⟩ := hc
        cases hc1
        simp only [State.deliver] at hd
        split at hd
        · simp only [Except.bind_eq_ok, Except.pure_eq_ok] at hd
          obtain ⟨_, _, hd⟩ := hd
          cases hd; simp [State.isEnded] at hdet
        · cases hd; simp [State.isEnded] at hdet
      | abortReading fc fsr fn er a b =>
        exfalso
        simp only [State.consumeData, Except.bind_eq_ok, Except.pure_eq_ok] at hc
        obtain ⟨_, hc, hc1⟩ := hc
        cases hc1
        cases hd; simp [State.isEnded] at hdet
      | waitForReset fc a b =>
        cases fin with
        | true => exact absurd ⟨fc, a, b, rfl⟩ (hop off d rfl)
        | false =>
          have hw : ends = [] := h1.2 ⟨fc, a, b, rfl⟩
          have e1 := (hnote false (off + d.length)).2
          subst hw
          simp only [Bool.false_eq_true, if_false] at e1
          refine ⟨.inl ?_, fun _ => ?_⟩
          · exact ((hnf _).2.trans e1 :)
          · exact ((hnf _).2.trans e1 :)
      | dataRead a b => exact absurd rfl hend
      | resetRecvd a b => exact absurd rfl hend
    | reset err fs rel =>
      simp only [Tr.step, Except.bind_eq_ok, Except.pure_eq_ok] at hs
      obtain ⟨⟨st2, ses2, r, evs⟩, hin, hs⟩ := hs
      cases hs
      simp only [State.reset] at hin
      split at hin
      · cases hin
      simp only [Except.bind_eq_ok] at hin
      obtain ⟨⟨st1, ses1⟩, hc, hd⟩ := hin
      -- the size announced is consistent with what is known
      have hfs : finalSizeOk true t.st.known fs t.hi = true := by
        by_contra hbad
        rw [consumeData_final ses h (by simpa using hend) (by simpa using hbad)] at hc
        cases hc
      have hge : t.hi ≤ fs := by
        cases hk : t.st.known <;> rw [hk] at hfs <;> simp [finalSizeOk] at hfs <;> omega
      have hends : Ends (max t.hi fs) (fs :: t.ends) := by
        refine ⟨by simp, ?_⟩
        intro x hx0
        rcases List.mem_cons.mp hx0 with rfl | hx
        · omega
        · clear hx0
          rcases h1.1 with h0 | h0
          · rw [h0] at hx; cases hx
          · have hxe := h0.eq x hx
            have hk : t.st.known = true := by
              have hst := h.st
              obtain ⟨st, adv, frames, ends, hi, delivered, finSeen⟩ := t
              simp only at hst hx hend ⊢
              cases st with
              | recv fc buf => exact absurd hst.2.2.2.2.2 (List.ne_nil_of_mem hx)
              | sizeKnown fc buf => rfl
              | dataRecvd fc buf => rfl
              | sizeKnownAt fc buf er fs rel => rfl
              | abortReading fc fsr fn er a b =>
                obtain ⟨-, -, -, h⟩ := hst
                cases fsr with
                | true => rfl
                | false => exact absurd h (List.ne_nil_of_mem hx)
              | waitForReset fc a b =>
                have h2 := h1.2 ⟨fc, a, b, rfl⟩
                exact absurd h2 (List.ne_nil_of_mem hx)
              | dataRead a b => exact absurd rfl hend
              | resetRecvd a b => exact absurd rfl hend
            rw [hk] at hfs
            simp [finalSizeOk] at hfs
            omega
      refine ⟨.inr (by simp only [hnote]; exact hends), ?_⟩
      rintro ⟨fc, a, b, hw⟩
      exfalso
      -- a reset never leaves the stream waiting for one
      simp only at hw
      subst hw
      have hfin : ∀ (x : State) (s : RFc) p q u v,
          x.finishReset s p q u v ≠ .ok (.waitForReset fc a b, ses2, r, evs) := by
        intro x s p q u v h
        unfold State.finishReset at h
        split at h
        all_goals first
          | (split at h
             · cases h
             · simp only [Except.bind_eq_ok, Except.pure_eq_ok] at h
               obtain ⟨_, _, h⟩ := h
               cases h)
          | cases h
      have hcd : ∀ (f : RFc) (bf : Rx) e x y s, (State.sizeKnownAt f bf e x y).completeIfDrained s ≠
          .ok (.waitForReset fc a b, ses2, r, evs) := by
        intro f bf e x y s h
        simp only [State.completeIfDrained] at h
        split at h
        · cases h
        · exact hfin _ _ _ _ _ _ h
      cases st1 with
      | recv fc buf =>
        simp only [State.resetMatch, Except.bind_eq_ok] at hd
        obtain ⟨_, _, hd⟩ := hd
        exact hcd _ _ _ _ _ _ hd
      | sizeKnown fc buf =>
        simp only [State.resetMatch, Except.bind_eq_ok] at hd
        obtain ⟨_, _, hd⟩ := hd
        exact hcd _ _ _ _ _ _ hd
      | sizeKnownAt fc buf e fs rel =>
        simp only [State.resetMatch] at hd
        split at hd
        · cases hd
        · split at hd
          · simp only [Except.bind_eq_ok] at hd
            obtain ⟨_, _, hd⟩ := hd
            exact hcd _ _ _ _ _ _ hd
          · cases hd
      | dataRecvd fc buf => cases hd
      | abortReading fc fsr fn e a b =>
        simp only [State.resetMatch] at hd
        exact hfin _ _ _ _ _ _ hd
      | waitForReset fc a b =>
        simp only [State.resetMatch] at hd
        exact hfin _ _ _ _ _ _ hd
      | dataRead a b => cases hd
      | resetRecvd a b => cases hd
    | stopSendingAcked =>
      cases hs
      obtain ⟨st, adv, frames, ends, hi, delivered, finSeen⟩ := t
      cases st with
      | abortReading fc fsr fn er a b =>
        refine ⟨h1.1, ?_⟩
        rintro ⟨f, x, y, hw⟩
        have hst := h.st
        obtain ⟨-, -, -, hst⟩ := hst
        cases fsr with
        | true => simp [State.stopSendingAcked] at hw
        | false => exact hst
      | waitForReset fc a b => exact h1
      | _ => simp [Tr.Waiting, State.stopSendingAcked, State.isEnded] at hdet hend
    | read n =>
      simp only [Tr.step] at hs
      split at hs
      rotate_left
      · cases hs; exact h1
      · cases hs
      rename_i st' ses2 out fin evs hr
      cases hs
      refine ⟨h1.1, ?_⟩
      rintro ⟨f, x, y, hw⟩
      exfalso
      simp only at hw
      subst hw
      cases hst : t.st with
      | recv fc buf =>
        rw [hst] at hr
        simp only [State.read, Except.bind_eq_ok, Except.pure_eq_ok] at hr
        obtain ⟨⟨b1, out'⟩, hb, ⟨fc1, ses3⟩, hf, hr⟩ := hr
        cases hr
      | sizeKnown fc buf =>
        rw [hst] at hr
        simp only [State.read, Except.bind_eq_ok, Except.pure_eq_ok] at hr
        obtain ⟨⟨b1, out'⟩, hb, ⟨fc1, ses3⟩, hf, hr⟩ := hr
        cases hr
      | dataRecvd fc buf =>
        rw [hst] at hr
        simp only [State.read, Except.bind_eq_ok] at hr
        obtain ⟨⟨b1, out'⟩, hb, ⟨fc1, ses3⟩, hf, left, hl, hr⟩ := hr
        split at hr <;> cases hr
      | sizeKnownAt fc buf e fs rel =>
        rw [hst] at hr
        simp only [State.read, Except.bind_eq_ok] at hr
        obtain ⟨⟨b1, out'⟩, hb, ⟨fc1, ses3⟩, hf, ⟨st3, ses4, r, ev⟩, hcm, hr⟩ := hr
        cases hr
        simp only [State.completeIfDrained] at hcm
        split at hcm
        · cases hcm
        · simp only [State.finishReset] at hcm
          split at hcm
          · cases hcm
          · simp only [Except.bind_eq_ok, Except.pure_eq_ok] at hcm
            obtain ⟨_, _, h⟩ := hcm
            cases h
      | _ => rw [hst] at hr; cases hr
    | stopSending err =>
      simp only [Tr.step, Except.bind_eq_ok, Except.pure_eq_ok] at hs
      obtain ⟨⟨st2, ses2, r, evs⟩, hin, hs⟩ := hs
      cases hs
      refine ⟨h1.1, ?_⟩
      rintro ⟨f, x, y, hw⟩
      simp only at hw
      subst hw
      cases hst : t.st with
      | recv fc buf =>
        rw [hst] at hin
        simp only [State.stopSending, Except.bind_eq_ok, Except.pure_eq_ok] at hin
        obtain ⟨_, _, hin⟩ := hin
        cases hin
      | sizeKnown fc buf =>
        rw [hst] at hin
        simp only [State.stopSending, Except.bind_eq_ok, Except.pure_eq_ok] at hin
        obtain ⟨_, _, hin⟩ := hin
        cases hin
      | dataRecvd fc buf =>
        rw [hst] at hin
        simp only [State.stopSending, Except.bind_eq_ok, Except.pure_eq_ok] at hin
        obtain ⟨_, _, hin⟩ := hin
        cases hin
      | sizeKnownAt fc buf e fs rel =>
        rw [hst] at hin
        simp only [State.stopSending, State.finishReset] at hin
        split at hin
        · cases hin
        · simp only [Except.bind_eq_ok, Except.pure_eq_ok] at hin
          obtain ⟨_, _, h⟩ := hin
          cases h
      | _ =>
        rw [hst] at hin
        first | exact h1.2 ⟨_, _, _, hst⟩ | cases hin
    | write fits now rtt =>
      simp only [Tr.step, Except.bind_eq_ok, Except.pure_eq_ok] at hs
      obtain ⟨⟨st1, f⟩, hw, hs⟩ := hs
      cases hs
      refine ⟨h1.1, ?_⟩
      rintro ⟨fc, x, y, hww⟩
      simp only at hww
      subst hww
      cases hst : t.st with
      | recv fc buf =>
        rw [hst] at hw
        simp only [State.writeFrame, Except.bind_eq_ok, Except.pure_eq_ok] at hw
        obtain ⟨_, _, hw⟩ := hw
        cases hw
      | abortReading fc fsr fn e a b =>
        rw [hst] at hw
        simp only [State.writeFrame] at hw
        split at hw <;> cases hw
      | _ =>
        rw [hst] at hw
        first | exact h1.2 ⟨_, _, _, hst⟩ | cases hw
    | stopSendingLost =>
      cases hs
      obtain ⟨st, adv, frames, ends, hi, delivered, finSeen⟩ := t
      cases st with
      | abortReading fc fsr fn er a b => simp [Tr.Waiting, State.stopSendingLost, State.isEnded] at hdet
      | _ => exact h1
    | maxStreamDataLost l =>
      cases hs
      obtain ⟨st, adv, frames, ends, hi, delivered, finSeen⟩ := t
      cases st with
      | recv fc buf => simp [Tr.Waiting, State.maxStreamDataLost, State.isEnded] at hdet
      | _ => exact h1
    | peerBlocked =>
      cases hs
      obtain ⟨st, adv, frames, ends, hi, delivered, finSeen⟩ := t
      cases st with
      | recv fc buf => simp [Tr.Waiting, State.sendFlowcUpdate, State.isEnded] at hdet
      | _ => exact h1
    | setWindow w =>
      cases hs
      obtain ⟨st, adv, frames, ends, hi, delivered, finSeen⟩ := t
      cases st with
      | recv fc buf => simp [Tr.Waiting, State.setStreamMaxData, State.isEnded] at hdet
      | _ => exact h1

/-- C09 over whole histories in which no FIN arrives on a stream waiting for a reset: all final
sizes accepted on a stream agree, and no accepted frame carried a byte beyond them.
Missing: histories with such a FIN — see `C09_waiting_stream_accepts_second_size`. -/
theorem C09_one_final_size_partial {m : Nat} {ops : List COp} {c : Conn} {os : List Out}
    (hr : (Conn.new m).run ops = .ok (c, os)) (hnf : NoFinWhileWaiting (Conn.new m) ops)
    {t : Tr} (ht : t ∈ c.streams) {e : Nat} (he : e ∈ t.ends) :
    (∀ e' ∈ t.ends, e' = e) ∧ ∀ k b, t.Carried k b → k < e := by
  have main : ∀ (ops : List COp) (c0 : Conn) (os : List Out), COk c0 → (∀ t ∈ c0.streams, OneSize t) →
      NoFinWhileWaiting c0 ops → c0.run ops = .ok (c, os) → ∀ t ∈ c.streams, OneSize t := by
    intro ops
    induction ops with
    | nil => intro c0 os _ h _ hr; cases hr; exact h
    | cons op ops ih =>
      intro c0 os hc h hnf hr
      simp only [Conn.run, Except.bind_eq_ok, Except.pure_eq_ok] at hr
      obtain ⟨⟨c1, o⟩, h1, ⟨c2, os2⟩, h2, hr⟩ := hr
      cases hr
      refine ih c1 os2 (cstep_ok hc h1) ?_ (hnf.2 _ _ h1) h2
      intro t ht
      obtain ⟨i, hi⟩ := List.mem_iff_getElem?.mp ht
      rcases cstep_stream i h1 with ⟨op', t1, t', ses', rfl, ht1, ht', hstep⟩ | ⟨hno, hsame⟩
      · rw [hi] at ht'
        cases ht'
        have hm := List.mem_of_getElem? ht1
        refine oneSize_step (hc.str t1 hm) (h t1 hm) ?_ hstep
        rintro off d rfl ⟨fc, a, b, hw⟩
        exact hnf.1 i off d t1 fc a b rfl ht1 hw
      · rcases hsame with hs | ⟨_, x, hs⟩
        · rw [hi] at hs
          exact h t (List.mem_of_getElem? hs.symm)
        · rw [hi] at hs
          cases hs
          exact ⟨.inl rfl, fun _ => rfl⟩
  have h1 := main ops _ os (cok_new m) (by simp [Conn.new]) hnf hr t ht
  rcases h1.1 with h0 | h0
  · rw [h0] at he; cases he
  · refine ⟨fun e' he' => (h0.eq e' he').trans (h0.eq e he).symm, fun k b hb => ?_⟩
    rw [h0.eq e he]
    exact ((run_ok hr).str t ht).top k b hb

/-- The history of the violation of C09: the application abandons the stream, the peer acknowledges
STOP_SENDING, then sends FIN at offset 2 and then a reset with final size 5. -/
def c09History : List COp :=
  [.newStream 100, .onStream 0 (.frame false 0 [1]), .onStream 0 (.stopSending 7),
   .onStream 0 .stopSendingAcked, .onStream 0 (.frame true 1 [2]), .onStream 0 (.reset 9 5 0)]

/-- C09 does not hold for streams waiting for a reset: both final sizes 2 and 5 are accepted, and
the connection is charged for five bytes. -/
theorem C09_waiting_stream_accepts_second_size :
    (match (Conn.new 1000).run c09History with
      | .ok (c, _) => (c.streams.map Tr.ends, c.ses.consumed)
      | .error _ => ([], 0)) = ([[5, 2]], 5) := by decide +kernel

/-! ## C10 -/

/-- C10: with sane limits, the peer's usage never exceeds the latest limit advertised, on any
stream and summed over all streams. -/
theorem C10_usage_within_latest_limits_partial {m : Nat} {ops : List COp} {c : Conn} {os : List Out}
    (hm : m ≤ 2 ^ 62 - 1) (hsane : SaneRun (Conn.new m) ops)
    (hr : (Conn.new m).run ops = .ok (c, os)) :
    (∀ t ∈ c.streams, ∃ l, t.advertised.head? = some l ∧ t.hi ≤ l) ∧
    (∃ l, c.advertised.head? = some l ∧ sumBy Tr.hi c.streams ≤ l) := by
  have h := sok_run (sok_new hm) hsane hr
  refine ⟨fun t ht => ?_, c.ses.maxAllowed, h.ok.adv, ?_⟩
  · cases hl : t.advertised.head? with
    | none =>
      -- every stream has advertised something
      exfalso
      have key : ∀ t ∈ c.streams, t.advertised ≠ [] := by
        have : ∀ c : Conn, (∀ t ∈ c.streams, t.advertised ≠ []) → ∀ (ops : List COp) os c',
            c.run ops = .ok (c', os) → ∀ t ∈ c'.streams, t.advertised ≠ [] := by
          intro c h ops os c' hr
          refine run_induct (P := fun c => ∀ t ∈ c.streams, t.advertised ≠ []) ?_ h hr
          intro c c' op o h hs t ht
          obtain ⟨i, hi⟩ := List.mem_iff_getElem?.mp ht
          rcases cstep_stream i hs with ⟨op', t1, t', ses', rfl, ht1, ht', hstep⟩ | ⟨hno, hsame⟩
          · rw [hi] at ht'; cases ht'
            have := h t1 (List.mem_of_getElem? ht1)
            rcases write_adv hstep with he | ⟨l, he⟩
            · rw [he]; exact this
            · rw [he]; simp
          · rcases hsame with hs | ⟨_, x, hs⟩
            · rw [hi] at hs
              exact h t (List.mem_of_getElem? hs.symm)
            · rw [hi] at hs; cases hs; simp [Tr.new]
        exact this (Conn.new m) (by simp [Conn.new]) ops os c hr
      exact key t ht (List.head?_eq_none_iff.mp hl)
    | some l => exact ⟨l, rfl, (h.lim t ht).hi l hl⟩
  · rw [← h.ok.con]; exact h.ses.con

/-- C10: a frame that uses more of a stream than the latest advertised stream limit, or more of the
connection than the latest advertised connection limit, is refused with a flow-control error
(STREAM frames and resets alike; no final size known yet). -/
theorem C10_excess_refused {m : Nat} {ops : List COp} {c : Conn} {os : List Out}
    (hr : (Conn.new m).run ops = .ok (c, os)) {i : Nat} {t : Tr} (ht : c.streams[i]? = some t)
    (hend : t.st.isEnded = false) (hno : t.ends = []) {ls lc x : Nat}
    (hls : t.advertised.head? = some ls) (hlc : c.advertised.head? = some lc)
    (hx : t.hi < x) (hbad : ls < x ∨ lc < sumBy Tr.hi c.streams + (x - t.hi)) :
    (∀ fin off d, off + d.length = x → c.step (.onStream i (.frame fin off d)) = .error .flowControl) ∧
    (∀ err rel, rel ≤ x → c.step (.onStream i (.reset err x rel)) = .error .flowControl) := by
  have hok := run_ok hr
  have hstr := hok.str t (List.mem_of_getElem? ht)
  have hk : t.st.known = false := by
    have hst := hstr.st
    obtain ⟨st, adv, frames, ends, hi, delivered, finSeen⟩ := t
    simp only at hst hno ⊢
    subst hno
    cases st with
    | sizeKnown fc buf => exact absurd rfl hst.2.2.2.2.2.1.ne
    | dataRecvd fc buf => exact absurd rfl hst.2.2.2.2.2.1.ne
    | sizeKnownAt fc buf er fs rel => exact absurd rfl hst.2.2.2.2.2.2.2.2.ne
    | abortReading fc fsr fn er a b =>
      cases fsr with
      | true => exact absurd rfl hst.2.2.2.ne
      | false => rfl
    | _ => rfl
  have hadv := hok.adv
  rw [hlc] at hadv
  cases hadv
  have hf : ∀ fin, finalSizeOk fin t.st.known x t.hi = true := by
    intro fin
    rw [hk]
    cases fin <;> simp [finalSizeOk]; omega
  have hcon := hok.con
  have hlim : (∃ l, t.advertised.head? = some l ∧ l < x) ∨
      c.ses.maxAllowed < c.ses.consumed + (x - t.hi) := by
    rcases hbad with h | h
    · exact .inl ⟨ls, hls, h⟩
    · exact .inr (by omega)
  constructor
  · intro fin off d hxe
    simp only [Conn.step, ht, Tr.step, State.inboundFrame, hxe,
      consumeData_limit c.ses hstr hend (hf fin) hx hlim, bind, Except.bind]
  · intro err rel hle
    simp only [Conn.step, ht, Tr.step, State.reset,
      consumeData_limit c.ses hstr hend (hf true) hx hlim, bind, Except.bind]
    rw [if_neg (by omega)]

/-- C10: a flow-control error is raised only against a peer that exceeded a limit. -/
theorem C10_flow_control_error_is_deserved {m : Nat} {ops : List COp} {c : Conn} {os : List Out}
    (hm : m ≤ 2 ^ 62 - 1) (hsane : SaneRun (Conn.new m) ops)
    (hr : (Conn.new m).run ops = .ok (c, os)) {i : Nat} {op : Op}
    (herr : c.step (.onStream i op) = .error .flowControl) :
    ∃ t x, c.streams[i]? = some t ∧ t.hi < x ∧
      ((∃ fin off d, op = .frame fin off d ∧ x = off + d.length) ∨ (∃ err rel, op = .reset err x rel)) ∧
      ((∃ l, t.advertised.head? = some l ∧ l < x) ∨
       (∃ l, c.advertised.head? = some l ∧ l < sumBy Tr.hi c.streams + (x - t.hi))) := by
  have h := sok_run (sok_new hm) hsane hr
  simp only [Conn.step] at herr
  split at herr
  · cases herr
  rename_i t ht
  have hfit := h.fit (List.mem_of_getElem? ht)
  have hstep : t.step c.ses op = .error .flowControl := by
    simp only [Except.bind_eq_error] at herr
    rcases herr with h | ⟨_, _, h⟩
    · exact h
    · cases h
  have hconv : ∀ x, (∃ l, t.advertised.head? = some l ∧ l < x) ∨
      c.ses.maxAllowed < c.ses.consumed + (x - t.hi) →
      ((∃ l, t.advertised.head? = some l ∧ l < x) ∨
       (∃ l, c.advertised.head? = some l ∧ l < sumBy Tr.hi c.streams + (x - t.hi))) := by
    intro x hx
    rcases hx with hx | hx
    · exact .inl hx
    · exact .inr ⟨_, h.ok.adv, by have := h.ok.con; omega⟩
  by_cases hop : (∀ fin off d, op ≠ .frame fin off d) ∧ (∀ err fs rel, op ≠ .reset err fs rel)
  · obtain ⟨r, hr⟩ := local_succeeds hfit hop
    rw [hr] at hstep; cases hstep
  · cases op with
    | frame fin off d =>
      rcases frame_error hfit hstep with ⟨_, h⟩ | ⟨_, _, h1, h2⟩ | h
      · cases h
      · exact ⟨t, off + d.length, ht, h1, .inl ⟨fin, off, d, rfl, rfl⟩, hconv _ h2⟩
      · cases h
    | reset err fs rel =>
      rcases reset_error hfit hstep with ⟨_, h⟩ | ⟨_, h⟩ | ⟨_, _, h1, h2⟩ | ⟨_, h⟩
      · cases h
      · cases h
      · exact ⟨t, fs, ht, h1, .inr ⟨err, rel, rfl⟩, hconv _ h2⟩
      · cases h
    | _ => exact absurd ⟨by simp, by simp⟩ hop

/-! ## C11 -/

/-- C11: the connection's count of used credit is the sum of what the peer used on its streams, and
its count of returned credit is that sum less what is still held for delivery to the
application. -/
theorem C11_connection_totals_are_sums {m : Nat} {ops : List COp} {c : Conn} {os : List Out}
    (hr : (Conn.new m).run ops = .ok (c, os)) :
    c.ses.consumed = sumBy Tr.hi c.streams ∧
    c.ses.retired = sumBy (fun t => t.hi - t.outstanding) c.streams ∧
    (∀ t ∈ c.streams, t.outstanding ≤ t.hi) := by
  have h := run_ok hr
  have hle : ∀ t ∈ c.streams, t.outstanding ≤ t.hi := by
    intro t ht
    have hs := (h.str t ht)
    have hst := hs.st
    obtain ⟨st, adv, frames, ends, hi, delivered, finSeen⟩ := t
    cases st <;> simp only [Tr.outstanding] <;> first
      | exact Nat.sub_le _ _
      | exact Nat.zero_le _
      | (have := hst.2.2.2.2.1; simp only at this ⊢; omega)
  refine ⟨h.con, ?_, hle⟩
  have hsum : ∀ l : List Tr, (∀ t ∈ l, t.outstanding ≤ t.hi) →
      sumBy (fun t => t.hi - t.outstanding) l + sumBy Tr.outstanding l = sumBy Tr.hi l := by
    intro l
    induction l with
    | nil => intro _; rfl
    | cons x l ih =>
      intro hl
      have := ih (fun t ht => hl t (by simp [ht]))
      have := hl x (by simp)
      simp only [sumBy]; omega
  have := hsum c.streams hle
  have := h.ret
  omega

/-- C11: when every stream has ended, all credit has been returned. -/
theorem C11_ended_streams_hold_no_credit {m : Nat} {ops : List COp} {c : Conn} {os : List Out}
    (hr : (Conn.new m).run ops = .ok (c, os)) (hend : ∀ t ∈ c.streams, t.st.isEnded = true) :
    c.ses.retired = c.ses.consumed := by
  have h := run_ok hr
  have : ∀ l : List Tr, (∀ t ∈ l, t.st.isEnded = true) → sumBy Tr.outstanding l = 0 := by
    intro l
    induction l with
    | nil => intro _; rfl
    | cons x l ih =>
      intro hl
      have h1 := ih (fun t ht => hl t (by simp [ht]))
      have h2 := hl x (by simp)
      have h3 : x.outstanding = 0 := by
        unfold Tr.outstanding
        cases hx : x.st <;> rw [hx] at h2 <;> first | rfl | cases h2
      simp only [sumBy]; omega
  have h0 := this c.streams hend
  have h1 := h.ret
  have h2 := h.con
  omega

/-- C11: with sane limits, returned ≤ used ≤ latest limit, for every stream and the connection. -/
theorem C11_returned_used_limit {m : Nat} {ops : List COp} {c : Conn} {os : List Out}
    (hm : m ≤ 2 ^ 62 - 1) (hsane : SaneRun (Conn.new m) ops)
    (hr : (Conn.new m).run ops = .ok (c, os)) :
    (c.ses.retired ≤ c.ses.consumed ∧ ∀ l, c.advertised.head? = some l → c.ses.consumed ≤ l) ∧
    ∀ t ∈ c.streams, ∀ fc, t.st.fc? = some fc →
      fc.retired ≤ fc.consumed ∧ fc.consumed = t.hi ∧ fc.retired = t.hi - t.outstanding ∧
      ∀ l, t.advertised.head? = some l → fc.consumed ≤ l := by
  have h := sok_run (sok_new hm) hsane hr
  refine ⟨⟨h.ses.ret, fun l hl => ?_⟩, fun t ht fc hfc => ?_⟩
  · rw [h.ok.adv] at hl; cases hl; exact h.ses.con
  · have hs := h.ok.str t ht
    obtain ⟨b1, b2, b3, b4, b5⟩ := fcBound hs (h.lim t ht) hfc
    refine ⟨b1, b3, ?_, fun l hl => by rw [b4] at hl; cases hl; exact b2⟩
    have hst := hs.st
    have hlen := hs.len
    obtain ⟨st, adv, frames, ends, hi, delivered, finSeen⟩ := t
    simp only at hst hlen b3
    cases st with
    | recv f buf => cases hfc; obtain ⟨-, -, a, b, -⟩ := hst; simp only [Tr.outstanding]; omega
    | sizeKnown f buf => cases hfc; obtain ⟨-, -, a, b, -⟩ := hst; simp only [Tr.outstanding]; omega
    | dataRecvd f buf => cases hfc; obtain ⟨-, -, a, b, -⟩ := hst; simp only [Tr.outstanding]; omega
    | sizeKnownAt f buf er fs rel =>
      cases hfc
      obtain ⟨-, -, a, b, c, d, e, -⟩ := hst
      simp only [Tr.outstanding]; omega
    | abortReading f fsr fn er a b => cases hfc; obtain ⟨-, a, -⟩ := hst; simp only [Tr.outstanding]; omega
    | waitForReset f a b => cases hfc; obtain ⟨-, a, -⟩ := hst; simp only [Tr.outstanding]; omega
    | dataRead a b => cases hfc
    | resetRecvd a b => cases hfc

/-- C11: no operation runs into an arithmetic panic, and the application's own calls and the
writing of frames never fail. -/
theorem C11_no_panic {m : Nat} {ops : List COp} {c : Conn} {os : List Out}
    (hm : m ≤ 2 ^ 62 - 1) (hsane : SaneRun (Conn.new m) ops)
    (hr : (Conn.new m).run ops = .ok (c, os)) (op : COp) :
    c.step op ≠ .error .panic ∧
    ((∀ i fin off d, op ≠ .onStream i (.frame fin off d)) →
     (∀ i err fs rel, op ≠ .onStream i (.reset err fs rel)) → ∃ r, c.step op = .ok r) := by
  have h := sok_run (sok_new hm) hsane hr
  cases op with
  | newStream m => exact ⟨nofun, fun _ _ => ⟨_, rfl⟩⟩
  | maxDataLost l => exact ⟨nofun, fun _ _ => ⟨_, rfl⟩⟩
  | peerBlocked => exact ⟨nofun, fun _ _ => ⟨_, rfl⟩⟩
  | write fits now rtt =>
    obtain ⟨r, hr⟩ := Flow.write_succeeds h.ses fits now rtt Flow.maxLocalMaxData
    simp only [Conn.step, bind, Except.bind, hr]
    exact ⟨nofun, fun _ _ => ⟨_, rfl⟩⟩
  | onStream i op =>
    simp only [Conn.step]
    cases ht : c.streams[i]? with
    | none => exact ⟨nofun, fun _ _ => ⟨_, rfl⟩⟩
    | some t =>
      have hfit := h.fit (List.mem_of_getElem? ht)
      by_cases hop : (∀ fin off d, op ≠ .frame fin off d) ∧ (∀ err fs rel, op ≠ .reset err fs rel)
      · obtain ⟨r, hr⟩ := local_succeeds hfit hop
        simp only [bind, Except.bind, hr]
        exact ⟨nofun, fun _ _ => ⟨_, rfl⟩⟩
      · cases op with
        | frame fin off d =>
          refine ⟨?_, fun h1 => absurd rfl (h1 i fin off d)⟩
          intro herr
          simp only [Except.bind_eq_error] at herr
          rcases herr with hstep | ⟨_, _, h⟩
          · rcases frame_error hfit hstep with ⟨_, h⟩ | ⟨_, h, _⟩ | h <;> cases h
          · cases h
        | reset err fs rel =>
          refine ⟨?_, fun _ h1 => absurd rfl (h1 i err fs rel)⟩
          intro herr
          simp only [Except.bind_eq_error] at herr
          rcases herr with hstep | ⟨_, _, h⟩
          · rcases reset_error hfit hstep with ⟨_, h⟩ | ⟨_, h⟩ | ⟨_, h, _⟩ | ⟨_, h⟩ <;> cases h
          · cases h
        | _ => exact absurd ⟨by simp, by simp⟩ hop

/-! ## C12 for a whole connection -/

/-- C12: with sane limits, the sequence of limits advertised for each stream and for the connection
never decreases (`advertised` is latest first). -/
theorem C12_advertised_never_decrease {m : Nat} {ops : List COp} {c : Conn} {os : List Out}
    (hm : m ≤ 2 ^ 62 - 1) (hsane : SaneRun (Conn.new m) ops)
    (hr : (Conn.new m).run ops = .ok (c, os)) :
    c.advertised.Pairwise (· ≥ ·) ∧ ∀ t ∈ c.streams, t.advertised.Pairwise (· ≥ ·) := by
  have h := sok_run (sok_new hm) hsane hr
  exact ⟨h.mono, h.smono⟩

/-! ## Non-vacuity -/

/-- Two streams: one read to its end, one with a reliable reset and then drained. -/
def demo : List COp :=
  [.newStream 10, .newStream 20,
   .onStream 0 (.frame true 2 [3, 4]), .onStream 1 (.frame false 0 [7, 8, 9]),
   .onStream 0 (.read 5), .onStream 0 (.frame false 0 [1, 2, 3]),
   .onStream 0 (.read 3), .onStream 0 (.read 3), .onStream 0 (.read 3),
   .onStream 1 (.reset 5 12 2), .onStream 1 (.read 1), .write true 0 0]

example : (match (Conn.new 30).run demo with
    | .ok (c, os) => (readsOf 0 demo os, readsOf 1 demo os, c.ses.consumed, c.ses.retired,
        c.streams.map Tr.outstanding, c.streams.map Tr.ends)
    | .error _ => ([], [], 0, 0, [], [])) =
    ([.data [] false, .data [1, 2, 3] false, .data [4] true, .noMoreData], [.data [7] false], 16, 15,
      [0, 1], [[4], [12]]) := by decide +kernel

theorem saneRun_of_no_window {ops : List COp} : ∀ c : Conn,
    (∀ op ∈ ops, (∀ i w, op ≠ .onStream i (.setWindow w)) ∧ ∀ m, op = .newStream m → m ≤ 2 ^ 62 - 1) →
    SaneRun c ops := by
  induction ops with
  | nil => intro c _; trivial
  | cons op ops ih =>
    intro c h
    have h1 := h op (by simp)
    refine ⟨?_, fun c1 o _ => ih c1 (fun x hx => h x (by simp [hx]))⟩
    cases op with
    | newStream m => exact h1.2 m rfl
    | onStream i op =>
      cases op with
      | setWindow w => exact absurd rfl (h1.1 i w)
      | _ => trivial
    | _ => trivial

/-- The hypotheses of the theorems about sane histories are met by `demo`. -/
example : SaneRun (Conn.new 30) demo := by
  apply saneRun_of_no_window
  simp [demo]

/-- The hypotheses of `C10_excess_refused` and `C09_conflicting_frames_refused_partial` are met. -/
example : (match (Conn.new 30).run [.newStream 10, .onStream 0 (.frame false 0 [1])] with
    | .ok (c, _) => (c.step (.onStream 0 (.frame false 9 [1, 2]))).isOk
    | .error _ => true) = false := by decide +kernel
example : (match (Conn.new 30).run [.newStream 10, .onStream 0 (.frame true 4 [1])] with
    | .ok (c, _) => (c.streams.map (fun t => (t.ends, t.st.isEnded)),
        (c.step (.onStream 0 (.frame true 3 [1]))).isOk, (c.step (.onStream 0 (.reset 1 6 0))).isOk)
    | .error _ => ([], true, true)) = ([([5], false)], false, false) := by decide +kernel

end Neqo.RecvS
