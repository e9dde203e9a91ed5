import Verif.E2E.Inv

/-! # What holds of two endpoints and the network between them -/
namespace Neqo.E2E
open Neqo.Codec (Bytes maxVarint)
open Neqo.Flow (SFc RFc)

structure SInv (m : Nat) (s : Sys) : Prop where
  len : s.rcv.streams.length = s.snd.streams.length
  lenA : s.arrived.length = s.snd.streams.length
  snd : Send.CInv s.snd
  each : ∀ (k : Nat) h, s.snd.streams[k]? = some h → Send.Reached h ∧ Send.OneErr h ∧ Send.RelOk h
  run : (RecvS.Conn.new m).run s.rops = .ok (s.rcv, s.routs)
  sane : RecvS.SaneRun (RecvS.Conn.new m) s.rops
  lim : ∃ l ∈ s.rcv.advertised, s.snd.limit ≤ l
  pair : ∀ (k : Nat) h t ar, s.snd.streams[k]? = some h → s.rcv.streams[k]? = some t → s.arrived[k]? = some ar → Pair h t ar

theorem SInv.sok {m : Nat} {s : Sys} (hm : m ≤ maxVarint) (h : SInv m s) : RecvS.SOk s.rcv :=
  RecvS.sok_run (RecvS.sok_new hm) h.sane h.run

theorem sinv_new {m0 m : Nat} (h : m0 ≤ m) : SInv m (Sys.new m0 m) := by
  refine ⟨rfl, rfl, ⟨by simp [Sys.new, Send.Conn.new], rfl, rfl, Nat.zero_le _⟩, by simp [Sys.new, Send.Conn.new], rfl, trivial,
    ⟨m, by simp [Sys.new, RecvS.Conn.new], h⟩, by simp [Sys.new, Send.Conn.new]⟩

/-- All three lists have an entry for a stream, or none has. -/
theorem SInv.entry {m : Nat} {s : Sys} (h : SInv m s) {k : Nat} {x : Send.Hist} (hk : s.snd.streams[k]? = some x) :
    ∃ t ar, s.rcv.streams[k]? = some t ∧ s.arrived[k]? = some ar := by
  have hlt := (List.getElem?_eq_some_iff.mp hk).1
  have h1 := h.len
  have h2 := h.lenA
  exact ⟨_, _, List.getElem?_eq_getElem (by omega), List.getElem?_eq_getElem (by omega)⟩

/-- A step of the sender, other than a new stream. -/
theorem onSnd_inv {m : Nat} {s : Sys} (hi : SInv m s) {op : Send.COp} (hv : op.Valid) (hno : ∀ id x, op ≠ .opens id x)
    (hl : ∀ l, op = .maxData l ∨ op = .initialMaxData l → l ∈ s.rcv.advertised)
    (hsl : ∀ k l t, op = .stream k (.maxStreamData l) → s.rcv.streams[k]? = some t → l ∈ t.advertised)
    (hack : ∀ k i h ar, op = .stream k (.acked i) → s.snd.streams[k]? = some h → s.arrived[k]? = some ar →
      ∃ j ∈ ar, ∃ off d fin fill, h.r.frames[j]? = some (.stream off d fin fill) ∧
        ((h.r.frames.take j).filterMap Send.tokOf).length = i) :
    ∃ s', s.onSnd op = .ok s' ∧ SInv m s' := by
  obtain ⟨c, hc, hci⟩ := Send.cstep_ok hi.snd hv
  refine ⟨{ s with snd := c }, by simp only [Sys.onSnd, hc], ?_⟩
  have hlen : c.streams.length = s.snd.streams.length := by
    have := Send.snd_length hc
    cases op with
    | opens id x => exact absurd rfl (hno id x)
    | _ => simpa using this
  refine ⟨by rw [hlen]; exact hi.len, by rw [hlen]; exact hi.lenA, hci, ?_, hi.run, hi.sane, ?_, ?_⟩
  · intro k h' hk
    rcases Send.snd_stream hc hk with ⟨h, h1, h2⟩ | ⟨id, x, e, _⟩
    · obtain ⟨r1, r2, r3⟩ := hi.each k h h1
      rcases h2 with rfl | ⟨conn, op', conn', out, h2, h3⟩
      · exact ⟨r1, r2, r3⟩
      · have hv' : op'.Valid := by
          rcases h3 with rfl | ⟨p, q, rfl⟩
          · exact hv
          · trivial
        exact ⟨Send.reached_step r1 hv' h2, Send.oneErr_step (Send.reached_inv r1) r2 h2, Send.relOk_step r1 r3 h2⟩
    · exact absurd e (hno id x)
  · obtain ⟨l, h1, h2⟩ := hi.lim
    rcases Send.snd_limit hc with e | ⟨l', e1, e2⟩
    · exact ⟨l, h1, by rw [e]; exact h2⟩
    · have := hl l' e1
      simp only [e2]
      rcases Nat.le_total s.snd.limit l' with hle | hle
      · exact ⟨l', this, by omega⟩
      · exact ⟨l, h1, by omega⟩
  · intro k h' t ar hk ht ha
    rcases Send.snd_stream hc hk with ⟨h, h1, h2⟩ | ⟨id, x, e, _⟩
    · have hp := hi.pair k h t ar h1 ht ha
      rcases h2 with rfl | ⟨conn, op', conn', out, h2, h3⟩
      · exact hp
      · refine pair_snd hp (hi.each k h h1).1 h2 ?_ ?_
        · intro l e
          subst e
          rcases h3 with rfl | ⟨p, q, e⟩
          · exact hsl k l t rfl ht
          · cases e
        · intro i e
          subst e
          rcases h3 with rfl | ⟨p, q, e⟩
          · exact hack k i h ar rfl h1 ha
          · cases e
    · exact absurd e (hno id x)

/-- A step of the receiver that succeeds keeps what it is about. -/
theorem onRcv_run {m : Nat} {s : Sys} (hi : SInv m s) {op : RecvS.COp} {c : RecvS.Conn} {o : RecvS.Out}
    (hc : s.rcv.step op = .ok (c, o)) (hsane : RecvS.Sane s.rcv op) :
    (RecvS.Conn.new m).run (s.rops ++ [op]) = .ok (c, s.routs ++ [o]) ∧ RecvS.SaneRun (RecvS.Conn.new m) (s.rops ++ [op]) ∧
    ∃ l ∈ c.advertised, s.snd.limit ≤ l := by
  obtain ⟨l, h1, h2⟩ := hi.lim
  exact ⟨RecvS.run_snoc hi.run hc, RecvS.sane_snoc hi.sane hi.run hsane, l, RecvS.rcv_adv hc l h1, h2⟩

/-- Operations of the receiver that are not about frames of the stream. -/
def Plain : RecvS.COp → Prop
  | .newStream _ => False
  | .onStream _ (.frame _ _ _) => False
  | .onStream _ (.reset _ _ _) => False
  | _ => True

theorem onRcv_inv {m : Nat} (hm : m ≤ maxVarint) {s : Sys} (hi : SInv m s) {op : RecvS.COp} (hp : Plain op)
    (hsane : RecvS.Sane s.rcv op) : ∃ s', s.onRcv op = .ok s' ∧ SInv m s' := by
  have hsok := hi.sok hm
  obtain ⟨c, o, hc⟩ : ∃ c o, s.rcv.step op = .ok (c, o) := by
    cases op with
    | newStream x => exact hp.elim
    | onStream k op =>
      simp only [RecvS.Conn.step]
      cases hk : s.rcv.streams[k]? with
      | none => exact ⟨_, _, rfl⟩
      | some t =>
        have hop : (∀ fin off d, op ≠ .frame fin off d) ∧ (∀ err fs rel, op ≠ .reset err fs rel) := by
          constructor
          · rintro fin off d rfl; exact hp
          · rintro err fs rel rfl; exact hp
        obtain ⟨⟨t', ses', o⟩, e⟩ := RecvS.local_succeeds (hsok.fit (List.mem_of_getElem? hk)) hop
        simp only [e]
        exact ⟨_, _, rfl⟩
    | write fits now rtt =>
      obtain ⟨⟨ses', o⟩, e⟩ := Flow.write_succeeds hsok.ses fits now rtt Flow.maxLocalMaxData
      simp only [RecvS.Conn.step, e]
      exact ⟨_, _, rfl⟩
    | maxDataLost l => exact ⟨_, _, rfl⟩
    | peerBlocked => exact ⟨_, _, rfl⟩
  obtain ⟨r1, r2, r3⟩ := onRcv_run hi hc hsane
  have hlen : c.streams.length = s.rcv.streams.length := by
    have := RecvS.rcv_length hc
    cases op with
    | newStream x => exact hp.elim
    | _ => simpa using this
  refine ⟨{ s with rcv := c, stops := stopOf op o ++ s.stops, rops := s.rops ++ [op], routs := s.routs ++ [o] },
    by simp only [Sys.onRcv, hc], ⟨by rw [hlen]; exact hi.len, hi.lenA, hi.snd, hi.each, r1, r2, r3, ?_⟩⟩
  intro k h t ar hk ht ha
  obtain ⟨t0, ar0, ht0, ha0⟩ := hi.entry hk
  rw [show s.arrived[k]? = some ar from ha] at ha0; cases ha0
  have hpr := hi.pair k h t0 ar hk ht0 ha
  rcases RecvS.cstep_stream k hc with ⟨op', t1, t2, ses', e1, e2, e3, e4⟩ | ⟨_, e | ⟨e, _⟩⟩
  · subst e1
    rw [ht0] at e2; cases e2
    rw [show c.streams[k]? = some t from ht] at e3; cases e3
    refine pair_rcv hpr ?_ (hsok.ok.str _ (List.mem_of_getElem? ht0)) (hsok.lim _ (List.mem_of_getElem? ht0)) ?_ e4
    · constructor
      · rintro fin off d rfl; exact hp
      · rintro err fs rel rfl; exact hp
    · rintro w fc buf rfl hst
      exact hsane t0 fc buf ht0 hst
  · rw [show c.streams[k]? = some t from ht, ht0] at e; cases e
    exact hpr
  · rw [ht0] at e; cases e

/-- A stream comes into being. -/
theorem opens_inv {m : Nat} {s : Sys} (hi : SInv m s) (id ms mr : Nat) : ∃ s', s.step (.opens id ms mr) = .ok s' ∧ SInv m s' := by
  simp only [Sys.step]
  by_cases hc : id ≤ maxVarint ∧ ms ≤ mr ∧ mr ≤ maxVarint
  · rw [if_pos hc]
    obtain ⟨c, e1, hci⟩ := Send.cstep_ok hi.snd (op := .opens id ms) ⟨hc.1, Nat.le_trans hc.2.1 hc.2.2⟩
    have e2 : s.rcv.step (.newStream mr) = .ok ({ s.rcv with streams := s.rcv.streams ++ [RecvS.Tr.new mr] }, .nothing) := rfl
    simp only [Sys.onSnd, e1, Sys.onRcv, e2]
    refine ⟨_, rfl, ?_⟩
    obtain ⟨r1, r2, r3⟩ := onRcv_run hi e2 hc.2.2
    have hlen := Send.snd_length e1
    simp only at hlen
    have hl1 := hi.len
    have hl2 := hi.lenA
    refine ⟨by simp; omega, by simp; omega, hci, ?_, r1, r2, ?_, ?_⟩
    · intro k h' hk
      rcases Send.snd_stream e1 hk with ⟨h, h1, h2⟩ | ⟨id', x, e, _, rfl⟩
      · obtain ⟨q1, q2, q3⟩ := hi.each k h h1
        rcases h2 with rfl | ⟨conn, op', conn', out, h2, h3⟩
        · exact ⟨q1, q2, q3⟩
        · rcases h3 with h3 | ⟨p, q, rfl⟩
          · cases h3
          · exact ⟨Send.reached_step (op := .connRaised p q) q1 trivial h2, Send.oneErr_step (Send.reached_inv q1) q2 h2, Send.relOk_step q1 q3 h2⟩
      · cases e
        exact ⟨⟨id, ms, _, [], hc.1, Nat.le_trans hc.2.1 hc.2.2, by simp, rfl⟩, Send.oneErr_new _ _ _, by
          intro e f x hx; simp [Send.Hist.new] at hx⟩
    · rcases Send.snd_limit e1 with e | ⟨l', e, _⟩
      · simp only [e]; exact r3
      · rcases e with e | e <;> cases e
    · intro k h' t ar hk ht ha
      simp only [List.getElem?_append] at ht ha
      rcases Send.snd_stream e1 hk with ⟨h, h1, h2⟩ | ⟨id', x, e, rfl, rfl⟩
      · have hlt := (List.getElem?_eq_some_iff.mp h1).1
        rw [if_pos (show k < s.rcv.streams.length by omega)] at ht
        rw [if_pos (show k < s.arrived.length by omega)] at ha
        have hp := hi.pair k h t ar h1 ht ha
        rcases h2 with rfl | ⟨conn, op', conn', out, h2, h3⟩
        · exact hp
        · rcases h3 with h3 | ⟨p, q, rfl⟩
          · cases h3
          · exact pair_snd hp (hi.each k h h1).1 h2 nofun nofun
      · cases e
        rw [if_neg (show ¬ s.snd.streams.length < s.rcv.streams.length by omega),
          show s.snd.streams.length - s.rcv.streams.length = 0 by omega] at ht
        rw [if_neg (show ¬ s.snd.streams.length < s.arrived.length by omega),
          show s.snd.streams.length - s.arrived.length = 0 by omega] at ha
        simp only [List.getElem?_cons_zero, Option.some.injEq] at ht ha
        subst ht; subst ha
        exact pair_new id ms mr s.snd.fc hc.2.1 hc.2.2
  · rw [if_neg hc]; exact ⟨s, rfl, hi⟩

/-- Frames of an honest sender are accepted, unless they leave too many gaps. -/
theorem arrival_error {m : Nat} (hm : m ≤ maxVarint) {s : Sys} (hi : SInv m s) {k : Nat} {h : Send.Hist} {t : RecvS.Tr}
    (hk : s.snd.streams[k]? = some h) (ht : s.rcv.streams[k]? = some t) {f : Send.Frame} (hf : f ∈ h.r.frames) {e : Err}
    (he : t.step s.rcv.ses (arrival f) = .error e) :
    e = .protocolViolation ∧ ∃ off d fin fill, f = .stream off d fin fill := by
  have hsok := hi.sok hm
  obtain ⟨_, ar, ht', ha⟩ := hi.entry hk
  rw [ht] at ht'; cases ht'
  have hp := hi.pair k h t ar hk ht ha
  obtain ⟨hr, ho, hrel⟩ := hi.each k h hk
  have hinv := Send.reached_inv hr
  have hfit := hsok.fit (List.mem_of_getElem? ht)
  have hfs := Send.C20_fin_at_final_size hr
  -- no flow control violation
  have hflow : ∀ x, x ≤ h.r.written.length →
      ¬ ((∃ l, t.advertised.head? = some l ∧ l < x) ∨ s.rcv.ses.maxAllowed < s.rcv.ses.consumed + (x - t.hi)) := by
    rintro x hx (⟨l, h1, h2⟩ | h1)
    · obtain ⟨l', h3, h4⟩ := hp.lim
      have := RecvS.mono_head (hsok.smono t (List.mem_of_getElem? ht)) h1 h3
      have := hinv.rcd.lim
      omega
    · obtain ⟨l', h3, h4⟩ := hi.lim
      have h5 := RecvS.mono_head hsok.mono hsok.ok.adv h3
      have h6 := sum_grow hi.len (fun j t' y q1 q2 => by
        obtain ⟨t'', ar', w1, w2⟩ := hi.entry q2
        rw [q1] at w1; cases w1
        exact (hi.pair j y t' ar' q2 q1 w2).hi) ht hk hx
      have h7 := hsok.ok.con
      have h8 := hi.snd.used
      have h9 := hi.snd.le
      omega
  have hres : ∀ err fs rel, h.r.resetCalled = true ∧ fs = h.r.written.length → rel ≤ fs → f.resetErr = some err →
      t.step s.rcv.ses (.reset err fs rel) = .error e → False := by
    intro err fs rel h1 h2 h3 h4
    rcases RecvS.reset_error hfit h4 with ⟨q, _⟩ | ⟨q, _⟩ | ⟨_, _, _, q⟩ | ⟨⟨fc, buf, e', fs', rel', q1, q2⟩, _⟩
    · omega
    · rw [final_ok hp hfit.str (by omega) (fun _ => h1.2)] at q; cases q
    · exact hflow fs (by omega) q
    · obtain ⟨g, g1, g2⟩ := hp.atErr e' (by rw [q1]; rfl)
      obtain ⟨E, o1, _⟩ := ho.one
      exact q2 ((o1 g g1 e' g2).trans (o1 f hf err h3).symm)
  cases f with
  | stream off d fin fill =>
    refine ⟨?_, off, d, fin, fill, rfl⟩
    have hle := stream_le hr hf
    rcases RecvS.frame_error hfit he with ⟨q, _⟩ | ⟨_, _, _, q⟩ | q
    · rw [final_ok hp hfit.str hle (fun e => by subst e; exact (hfs.1 off d fill hf).2)] at q; cases q
    · exact absurd q (hflow _ hle)
    · exact q
  | reset err fs => exact (hres err fs 0 (hfs.2.1 err fs hf) (Nat.zero_le _) rfl he).elim
  | resetAt err fs x => exact (hres err fs x (hfs.2.2 err fs x hf) (hrel err fs x hf) rfl he).elim
  | blocked l =>
    obtain ⟨r, hr'⟩ := RecvS.local_succeeds (op := .peerBlocked) hfit ⟨nofun, nofun⟩
    rw [show t.step s.rcv.ses (arrival (.blocked l)) = t.step s.rcv.ses .peerBlocked from rfl, hr'] at he
    cases he

/-- What can come of the arrival of a frame. -/
theorem arrive_inv {m : Nat} (hm : m ≤ maxVarint) {s : Sys} (hi : SInv m s) (k j : Nat) :
    (∃ s', s.step (.arrive k j) = .ok s' ∧ SInv m s') ∨ s.step (.arrive k j) = .error .protocolViolation := by
  have hsok := hi.sok hm
  simp only [Sys.step]
  cases hk : s.snd.streams[k]? with
  | none => exact .inl ⟨s, rfl, hi⟩
  | some h =>
    simp only
    cases hj : h.r.frames[j]? with
    | none => exact .inl ⟨s, rfl, hi⟩
    | some f =>
      simp only
      obtain ⟨t, ar, ht, ha⟩ := hi.entry hk
      cases hs : t.step s.rcv.ses (arrival f) with
      | error e =>
        obtain ⟨rfl, _⟩ := arrival_error hm hi hk ht (List.mem_of_getElem? hj) hs
        refine .inr ?_
        simp only [Sys.onRcv, RecvS.Conn.step, ht, hs]
        rfl
      | ok r =>
        obtain ⟨t', ses', o⟩ := r
        have hc : s.rcv.step (.onStream k (arrival f)) =
            .ok ({ s.rcv with ses := ses', streams := s.rcv.streams.set k t' }, o) := by
          simp only [RecvS.Conn.step, ht, hs]; rfl
        simp only [Sys.onRcv, hc]
        refine .inl ⟨_, rfl, ?_⟩
        have hsane : RecvS.Sane s.rcv (.onStream k (arrival f)) := by cases f <;> trivial
        obtain ⟨r1, r2, r3⟩ := onRcv_run hi hc hsane
        refine ⟨by simp; exact hi.len, by simp; exact hi.lenA, hi.snd, hi.each, r1, r2, r3, ?_⟩
        intro k' h' t'' ar' hk' ht' ha'
        simp only [List.getElem?_modify] at ha'
        by_cases hkk : k = k'
        · subst hkk
          rw [hk] at hk'; cases hk'
          simp only [List.getElem?_set_self (List.getElem?_eq_some_iff.mp ht).1, Option.some.injEq] at ht'
          subst ht'
          rw [ha] at ha'
          simp only [if_true, Option.map_eq_map, Option.map_some, Option.some.injEq] at ha'
          subst ha'
          exact pair_arrive (hi.pair k h t ar hk ht ha) (hi.each k h hk).1 hj (hsok.ok.str _ (List.mem_of_getElem? ht))
            (hsok.lim _ (List.mem_of_getElem? ht)) hs
        · simp only [List.getElem?_set_ne hkk] at ht'
          refine hi.pair k' h' t'' ar' hk' ht' ?_
          cases hx : s.arrived[k']? with
          | none => rw [hx] at ha'; cases ha'
          | some y => rw [hx] at ha'; simpa [hkk] using ha'

theorem localSnd_valid {op : Send.Op} (h : localSnd op = true) :
    op.Valid ∧ (∀ l, op ≠ .maxStreamData l) ∧ ∀ i, op ≠ .acked i := by
  cases op <;> first
    | (cases h; done)
    | exact ⟨trivial, nofun, nofun⟩
    | exact ⟨of_decide_eq_true (p := _ ≤ maxVarint) h, nofun, nofun⟩

theorem localRcv_plain {op : RecvS.Op} (h : localRcv op = true) (k : Nat) (c : RecvS.Conn) :
    Plain (.onStream k op) ∧ RecvS.Sane c (.onStream k op) := by
  cases op <;> first
    | (cases h; done)
    | exact ⟨trivial, trivial⟩

/-- Operations of a stream of the sender that neither raise its limit nor acknowledge data. -/
theorem onSnd_plain {m : Nat} {s : Sys} (hi : SInv m s) (k : Nat) {op : Send.Op} (hv : op.Valid) (h2 : ∀ l, op ≠ .maxStreamData l)
    (h3 : ∀ i, op ≠ .acked i) : ∃ s', s.onSnd (.stream k op) = .ok s' ∧ SInv m s' :=
  onSnd_inv hi (op := .stream k op) hv nofun (by rintro l (e | e) <;> cases e)
    (by rintro k l t e; cases e; exact absurd rfl (h2 l)) (by rintro k i h ar e; cases e; exact absurd rfl (h3 i))

theorem ack_inv {m : Nat} {s : Sys} (hi : SInv m s) (k j : Nat) : ∃ s', s.step (.ack k j) = .ok s' ∧ SInv m s' := by
  have keep : ∃ s', (Except.ok s : Except Err Sys) = .ok s' ∧ SInv m s' := ⟨s, rfl, hi⟩
  simp only [Sys.step]
  cases hk : s.snd.streams[k]? with
  | none => exact keep
  | some h =>
    cases ha : s.arrived[k]? with
    | none => exact keep
    | some ar =>
      simp only
      by_cases hj : j ∈ ar
      · rw [if_pos hj]
        unfold ackOp
        cases hf : h.r.frames[j]? with
        | none => exact keep
        | some f =>
          cases f with
          | stream off d fin fill =>
            simp only
            generalize hn : ((h.r.frames.take j).filterMap Send.tokOf).length = n
            refine onSnd_inv hi (op := .stream k (.acked n)) trivial nofun (by rintro l (e | e) <;> cases e) (by rintro k l t e; cases e) ?_
            intro k' i h' ar' e q1 q2
            injection e with e1 e2
            injection e2 with e2
            subst e1; subst e2
            rw [hk] at q1; cases q1
            rw [ha] at q2; cases q2
            exact ⟨j, hj, off, d, fin, fill, hf, hn⟩
          | reset e fs => exact onSnd_plain hi k (op := .resetAcked) trivial nofun nofun
          | resetAt e fs x => exact onSnd_plain hi k (op := .resetAcked) trivial nofun nofun
          | blocked l => exact keep
      · rw [if_neg hj]; exact keep

/-- Operations of the sender on the connection. -/
theorem onSnd_conn {m : Nat} {s : Sys} (hi : SInv m s) {op : Send.COp} (hv : op.Valid) (hno : ∀ id x, op ≠ .opens id x)
    (hns : ∀ k o, op ≠ .stream k o) (hl : ∀ l, op = .maxData l ∨ op = .initialMaxData l → l ∈ s.rcv.advertised) :
    ∃ s', s.onSnd op = .ok s' ∧ SInv m s' :=
  onSnd_inv hi hv hno hl (fun k l _ e => absurd e (hns k (.maxStreamData l))) (fun k i _ _ e => absurd e (hns k (.acked i)))

theorem raise_inv {m : Nat} {s : Sys} (hi : SInv m s) (k l : Nat) : ∃ s', s.step (.raise k l) = .ok s' ∧ SInv m s' := by
  simp only [Sys.step]
  by_cases hl : l ∈ s.announced k
  · rw [if_pos hl]
    have hle : l ≤ maxVarint := by
      unfold Sys.announced at hl
      cases ht : s.rcv.streams[k]? with
      | none => rw [ht] at hl; simp at hl
      | some t =>
        rw [ht] at hl
        have hlt := (List.getElem?_eq_some_iff.mp ht).1
        have h1 := hi.len
        have hks : s.snd.streams[k]? = some (s.snd.streams[k]'(by omega)) := List.getElem?_eq_getElem (by omega)
        obtain ⟨t', ar, w1, w2⟩ := hi.entry hks
        rw [ht] at w1; cases w1
        exact (hi.pair k _ t ar hks ht w2).advLe l (by simpa using hl)
    refine onSnd_inv hi (op := .stream k (.maxStreamData l)) hle nofun (by rintro l (e | e) <;> cases e) ?_ nofun
    intro k' l' t e ht
    cases e
    unfold Sys.announced at hl
    rw [ht] at hl
    simpa using hl
  · rw [if_neg hl]; exact ⟨s, rfl, hi⟩

/-- No event makes either endpoint fail, except that a frame may leave too many gaps. -/
theorem step_inv {m : Nat} (hm : m ≤ maxVarint) {s : Sys} (hi : SInv m s) (ev : Ev) (hk : Keeps s ev) :
    (∃ s', s.step ev = .ok s' ∧ SInv m s') ∨ (∃ k j, ev = .arrive k j) ∧ s.step ev = .error .protocolViolation := by
  have keep : ∃ s', (Except.ok s : Except Err Sys) = .ok s' ∧ SInv m s' := ⟨s, rfl, hi⟩
  cases ev with
  | arrive k j => exact (arrive_inv hm hi k j).imp id (fun h => ⟨⟨k, j, rfl⟩, h⟩)
  | opens id ms mr => exact .inl (opens_inv hi id ms mr)
  | send k op =>
    refine .inl ?_
    simp only [Sys.step]
    cases hl : localSnd op with
    | true =>
      obtain ⟨h1, h2, h3⟩ := localSnd_valid hl
      rw [if_pos rfl]
      exact onSnd_plain hi k h1 h2 h3
    | false => exact keep
  | blockedWrite fits =>
    exact .inl (onSnd_conn hi (op := .write fits) trivial nofun nofun (by rintro l (e | e) <;> cases e))
  | blockedLost l =>
    exact .inl (onSnd_conn hi (op := .blockedLost l) trivial nofun nofun (by rintro l (e | e) <;> cases e))
  | ack k j => exact .inl (ack_inv hi k j)
  | recv k op =>
    refine .inl ?_
    simp only [Sys.step]
    cases hl : localRcv op with
    | true =>
      obtain ⟨h1, h2⟩ := localRcv_plain hl k s.rcv
      rw [if_pos rfl]
      exact onRcv_inv hm hi h1 h2
    | false => exact keep
  | maxDataWrite fits now rtt => exact .inl (onRcv_inv hm hi (op := .write fits now rtt) trivial trivial)
  | maxDataLost l => exact .inl (onRcv_inv hm hi (op := .maxDataLost l) trivial trivial)
  | dataBlocked => exact .inl (onRcv_inv hm hi (op := .peerBlocked) trivial trivial)
  | raise k l => exact .inl (raise_inv hi k l)
  | raiseConn l =>
    refine .inl ?_
    simp only [Sys.step]
    by_cases hl : l ∈ s.rcv.advertised
    · rw [if_pos hl]
      exact onSnd_conn hi (op := .maxData l) trivial nofun nofun (by rintro l' (e | e) <;> cases e; exact hl)
    · rw [if_neg hl]; exact keep
  | params l =>
    refine .inl ?_
    simp only [Sys.step]
    by_cases hl : l ∈ s.rcv.advertised
    · rw [if_pos hl]
      exact onSnd_conn hi (op := .initialMaxData l) trivial nofun nofun (by rintro l' (e | e) <;> cases e; exact hl)
    · rw [if_neg hl]; exact keep
  | stop k err =>
    refine .inl ?_
    simp only [Sys.step]
    by_cases hl : (k, err) ∈ s.stops ∧ err ≤ maxVarint
    · rw [if_pos hl]
      exact onSnd_plain hi k (op := .stopSending err) hl.2 nofun nofun
    · rw [if_neg hl]; exact keep
  | window k w =>
    exact .inl (onRcv_inv hm hi (op := .onStream k (.setWindow w)) trivial hk)

theorem run_inv {m : Nat} (hm : m ≤ maxVarint) {s s' : Sys} (hi : SInv m s) {evs : List Ev} (hk : KeepsAll s evs)
    (hr : s.run evs = .ok s') : SInv m s' := by
  induction evs generalizing s with
  | nil => cases hr; exact hi
  | cons e es ih =>
    simp only [Sys.run] at hr
    split at hr
    · cases hr
    · rename_i s1 h1
      rcases step_inv hm hi e hk.1 with ⟨s2, h2, h3⟩ | ⟨_, h2⟩
      · rw [h1] at h2; cases h2
        exact ih h3 (hk.2 _ h1) hr
      · rw [h1] at h2; cases h2

theorem reached_inv {s : Sys} (h : Reached s) : ∃ m, m ≤ maxVarint ∧ SInv m s := by
  obtain ⟨m0, m, evs, h1, h2, h3, h4⟩ := h
  exact ⟨m, h2, run_inv h2 (sinv_new h1) h3 h4⟩

end Neqo.E2E
