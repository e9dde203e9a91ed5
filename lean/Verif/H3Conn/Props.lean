import Verif.H3Conn.Try
import Mathlib.Tactic.ByContra

/-!
# The HTTP/3 connection: critical streams, SETTINGS and the order of states (C91)
-/

namespace Neqo.H3c

/-- The streams without which HTTP/3 cannot go on (RFC 9114, section 6.2.1; RFC 9204, section 4.2). -/
def Spec.Critical (k : RK) : Prop := k = .control ∨ k = .encoder ∨ k = .decoder

theorem critical_iff (k : RK) : Spec.Critical k ↔ k.critical = true := by
  unfold Spec.Critical
  cases k <;> simp [RK.critical]

/-- The connection was closed by this end with this code. -/
def Spec.ClosedWith (code : Nat) (c : C) : Prop :=
  c.st = .closing (.app code) ∧ .closeConn code ∈ c.log ∧ c.recv = [] ∧ c.send = []

theorem closeWith_spec {c : C} (code : Nat) (h : c.st.over = false) :
    Spec.ClosedWith code (closeWith c code) := by
  unfold closeWith
  split
  · rw [if_neg (by rw [h]; exact Bool.false_ne_true)]
    refine ⟨rfl, ?_, rfl, rfl⟩
    exact List.mem_append_left _ (List.mem_append_right _ List.mem_cons_self)
  · refine ⟨rfl, ?_, rfl, rfl⟩
    exact List.mem_append_left _ (List.mem_append_right _ List.mem_cons_self)

theorem open_of {c : C} (h : c.st.over = false) : c.st.closedNow = false := by
  cases hs : c.st with
  | closed r => rw [hs] at h; cases h
  | _ => rfl

theorem failWith_spec {c : C} {e : Err} (h : c.st.over = false) (h1 : e ≠ .panic) (h2 : e ≠ .goaway) :
    Spec.ClosedWith e.code (failWith c e) := by
  unfold failWith
  split
  · exact absurd rfl h1
  · exact absurd rfl h2
  · exact closeWith_spec _ h

/-! ### Critical streams -/

/-- The peer has at most one control stream and one of each kind of QPACK stream, and all of them
are unidirectional. -/
theorem C91_one_of_each {q : Bool} {r : Role} {wt udp : Bool} {c : C} (h : Reach q r wt udp c)
    {i j : Nat} {k : RK} (hk : Spec.Critical k) (hi : get c.recv i = some k) :
    i / 2 % 2 = 1 ∧ (get c.recv j = some k → j = i) := by
  have hc := (critical_iff k).mp hk
  refine ⟨?_, fun hj => h.inv.one j i k hj hi hc⟩
  have := h.inv.uni i k hi hc
  simpa [isUni] using this

example : ∃ c, Reach true .client true true c ∧ get c.recv 3 = some .control ∧
    get c.recv 7 = some .encoder :=
  ⟨client busyC, client_reach _ (by decide +kernel), by decide +kernel, by decide +kernel⟩

/-- A second one closes the connection (H3_STREAM_CREATION_ERROR). -/
theorem C91_second_refused {c : C} {i j : Nat} {t : NewType} {k : RK} {x : In}
    (hd : c.dead = false) (ho : c.st.over = false)
    (hk : (t = .control ∧ k = .control) ∨ (t = .encoder ∧ k = .encoder) ∨ (t = .decoder ∧ k = .decoder))
    (hj : get c.recv j = some k) (hi : get c.recv i = some .head) (hx : x.first = .newStream t) :
    Spec.ClosedWith 0x103 (step c (.readable i x)) := by
  have hij : j ≠ i := by
    rintro rfl; rw [hi] at hj; cases hj
    rcases hk with ⟨_, e⟩ | ⟨_, e⟩ | ⟨_, e⟩ <;> cases e
  have hhas : hasKind { c with recv := del c.recv i } k = true := by
    unfold hasKind
    rw [List.any_eq_true]
    have hj' : get (del c.recv i) j = some k := by rw [get_del, if_neg hij]; exact hj
    have : ∀ l : List (Nat × RK), get l j = some k → ∃ p ∈ l, (p.2 == k) = true := by
      intro l
      induction l with
      | nil => intro h; cases h
      | cons p l ih =>
        obtain ⟨a, v⟩ := p
        intro h
        unfold get at h
        split at h
        · cases h; exact ⟨(a, k), List.mem_cons_self, by simp⟩
        · obtain ⟨p, hp, e⟩ := ih h; exact ⟨p, List.mem_cons_of_mem _ hp, e⟩
    exact this _ hj'
  have hsr : streamReceive c i (.newStream t) =
      ({ c with recv := del c.recv i }, .ok (.newStream t)) := by
    unfold streamReceive
    rw [hi]
    show afterRead c i (.ok (.newStream t, true)) = _
    unfold afterRead removeRecv
    dsimp only
    rw [hi]
    rfl
  have hns : newStream { c with recv := del c.recv i } t i x.second =
      ({ c with recv := del c.recv i }, .error .streamCreation) := by
    unfold newStream
    rcases hk with ⟨rfl, rfl⟩ | ⟨rfl, rfl⟩ | ⟨rfl, rfl⟩ <;> (dsimp only; rw [if_pos hhas])
  have hr : readable c i x = ({ c with recv := del c.recv i }, some .streamCreation) := by
    unfold readable readableBase
    rw [hx, hsr]
    dsimp only
    rw [hns]
  unfold step
  rw [hd, if_neg (by simp)]
  dsimp only
  rw [open_of ho, if_neg (by simp), hr]
  exact failWith_spec (c := { c with recv := del c.recv i }) (e := .streamCreation) ho (by intro e; cases e)
    (by intro e; cases e)

example : (client (busyC ++ [.opened 19, rd 19 (.newStream .encoder)])).st = .closing (.app 0x103) := by
  decide +kernel

/-- A bidirectional stream of a server, or a push stream of a client, closes the connection
(H3_STREAM_CREATION_ERROR). -/
theorem C91_wrong_kind_refused {c : C} {i : Nat} {t : NewType} {x : In} (hd : c.dead = false) (ho : c.st.over = false)
    (hk : (c.role = .client ∧ t = .http) ∨ (c.role = .server ∧ ∃ p, t = .push p))
    (hi : get c.recv i = some .head) (hx : x.first = .newStream t) :
    Spec.ClosedWith 0x103 (step c (.readable i x)) := by
  have hsr : streamReceive c i (.newStream t) =
      ({ c with recv := del c.recv i }, .ok (.newStream t)) := by
    unfold streamReceive
    rw [hi]
    show afterRead c i (.ok (.newStream t, true)) = _
    unfold afterRead removeRecv
    dsimp only
    rw [hi]
    rfl
  have hr : readable c i x = ({ c with recv := del c.recv i }, some .streamCreation) := by
    rcases hk with ⟨hc, rfl⟩ | ⟨hc, p, rfl⟩
    all_goals
      unfold readable readableBase
      rw [hx, hsr]
      dsimp only [newStream, handleOutput]
      rw [hc]
  unfold step
  rw [hd, if_neg (by simp)]
  dsimp only
  rw [open_of ho, if_neg (by simp), hr]
  exact failWith_spec (c := { c with recv := del c.recv i }) (e := .streamCreation) ho (by intro e; cases e)
    (by intro e; cases e)

example : (client (busyC ++ [.opened 1, rd 1 (.newStream .http)])).st = .closing (.app 0x103) := by
  decide +kernel

/-- When the peer rejects 0-RTT, nothing of the attempt is left: no streams, no sessions and none of
the settings that were remembered.  The application is told. -/
theorem C91_rejection_starts_over {c : C} (hd : c.dead = false) (hr : c.role = .client) (hz : c.st = .zeroRtt) :
    (step c .zeroRttRejected).st = .initializing ∧ (step c .zeroRttRejected).remote = .notYet ∧
    (∀ i, get (step c .zeroRttRejected).recv i = none ∧ get (step c .zeroRttRejected).send i = none ∧
      get (step c .zeroRttRejected).sess i = none) ∧
    (step c .zeroRttRejected).ctl = none ∧ (step c .zeroRttRejected).enc = none ∧ (step c .zeroRttRejected).dec = none ∧
    (step c .zeroRttRejected).log = c.log ++ [.zeroRttRejected] := by
  have e : step c .zeroRttRejected = ({ c with st := .initializing, ctl := none, enc := none, dec := none, remote := .notYet, send := [], recv := [], sess := [] } : C).emit .zeroRttRejected := by
    unfold step
    rw [hd, if_neg (by simp)]
    dsimp only
    rw [hz]
    rw [if_neg (show ¬ (St.zeroRtt.closedNow = true) by decide)]
    unfold rejectZeroRtt
    rw [hr]
    dsimp only
    rw [hz]
    dsimp only [settle, C.emit]
    rw [hd]
  rw [e]
  exact ⟨rfl, rfl, fun i => ⟨rfl, rfl, rfl⟩, rfl, rfl, rfl, rfl⟩

example : (client [.resume sets (some 2), .zeroRttRejected]).remote = .notYet ∧
    (client [.resume sets (some 2)]).remote = .zeroRtt sets := by decide +kernel

/-- No step takes away a critical stream of the peer while the connection goes on. (If 0-RTT is
rejected everything begins anew.) -/
theorem C91_critical_stay {q : Bool} {r : Role} {wt udp : Bool} {c : C} (h : Reach q r wt udp c)
    {e : Ev} (hf : Fits q c e) (hz : e ≠ .zeroRttRejected) {i : Nat} {k : RK}
    (hk : Spec.Critical k) (hi : get c.recv i = some k) :
    get (step c e).recv i = some k ∨ (step c e).st.over = true ∨ (step c e).dead = true := by
  rcases step_safe h.inv e hf hz with s | s
  · exact Or.inl (s i k hi ((critical_iff k).mp hk))
  · exact Or.inr s

example : get (step (client busyC) (.cancel 3 5)).recv 3 = some .control ∧
    get (step (client busyC) (rd 3 (.frames [.goaway 4]))).recv 3 = some .control := by decide +kernel

/-- If the peer resets one, or asks this end to stop one of its own, the connection is closed
(H3_CLOSED_CRITICAL_STREAM). -/
theorem C91_closed_critical {c : C} {i code : Nat} (hd : c.dead = false) (ho : c.st.over = false) :
    (∀ k, Spec.Critical k → get c.recv i = some k →
      Spec.ClosedWith 0x104 (step c (.resetIn i code))) ∧
    (c.ctl = some i ∨ c.enc = some i ∨ c.dec = some i →
      Spec.ClosedWith 0x104 (step c (.stopIn i code))) := by
  constructor
  · intro k hk hi
    have e : closeRecv c i (.remote code) = ({ c with recv := del c.recv i }, some .closedCritical) := by
      unfold closeRecv removeRecv
      rw [hi]
      rcases hk with rfl | rfl | rfl <;> rfl
    unfold step
    rw [hd, if_neg (by simp)]
    dsimp only
    rw [open_of ho, if_neg (by simp), e]
    exact failWith_spec (c := { c with recv := del c.recv i }) (e := .closedCritical) ho
      (by intro e; cases e) (by intro e; cases e)
  · intro hi
    have e : handleStop c i code = (c, some .closedCritical) := by
      unfold handleStop
      rw [if_pos]
      unfold sendCritical
      rcases hi with e | e | e <;> rw [e] <;> simp
    unfold step
    rw [hd, if_neg (by simp)]
    dsimp only
    rw [open_of ho, if_neg (by simp), e]
    exact failWith_spec (c := c) (e := .closedCritical) ho (by intro e; cases e) (by intro e; cases e)

example : (client busyC).ctl = some 2 ∧
    (step (client busyC) (.stopIn 2 9)).st = .closing (.app 0x104) ∧
    (step (client busyC) (.resetIn 7 9)).st = .closing (.app 0x104) := by decide +kernel

/-- The application cannot end them either. -/
theorem C91_application_cannot {c : C} {i code : Nat} :
    (∀ k, Spec.Critical k → get c.recv i = some k → step c (.stopRecv i code) = c) ∧
    (c.ctl = some i ∨ c.enc = some i ∨ c.dec = some i → step c (.resetSend i code) = c) := by
  constructor
  · intro k hk hi
    unfold step
    split
    · rfl
    · dsimp only
      unfold stopRecv
      rw [if_pos]
      · rfl
      · unfold recvCritical
        rw [hi]; exact (critical_iff k).mp hk
  · intro hi
    unfold step
    split
    · rfl
    · dsimp only
      unfold resetSend
      rw [if_pos]
      · rfl
      · unfold sendCritical
        rcases hi with e | e | e <;> rw [e] <;> simp

example : get (client busyC).recv 11 = some .decoder ∧ (client busyC).enc = some 6 := by decide +kernel

/-! ### SETTINGS -/

/-- Reading frames from the control stream. -/
theorem readable_frames {c : C} {i : Nat} {x : In} {fs : List Fr} (hi : get c.recv i = some .control)
    (hx : x.first = .frames fs) :
    readable c i x = match controlFrames c x.tp fs with
      | (c, .error e) => (c, some e)
      | (c, .ok rest) => match c.role with
        | .client => clientFrames c rest
        | .server => serverFrames c rest := by
  have hsr : streamReceive c i (.frames fs) = (c, .ok (.frames fs)) := by
    unfold streamReceive
    rw [hi]
    rfl
  unfold readable readableBase
  rw [hx, hsr]
  dsimp only
  unfold handleOutput
  dsimp only
  cases hq : controlFrames c x.tp fs with
  | mk c1 o => cases o <;> rfl

theorem step_frames {c : C} {i : Nat} {x : In} (hd : c.dead = false) (ho : c.st.over = false) :
    step c (.readable i x) = settle (readable c i x) := by
  unfold step
  rw [hd, if_neg (by simp)]
  dsimp only
  rw [open_of ho, if_neg (by simp)]

/-- The first frame on the control stream must be SETTINGS (H3_MISSING_SETTINGS). -/
theorem C91_settings_first {c : C} {i : Nat} {x : In} {f : Fr} {t : List Fr} (hd : c.dead = false)
    (ho : c.st.over = false) (hi : get c.recv i = some .control) (hx : x.first = .frames (f :: t))
    (hr : ∀ s, c.remote ≠ .received s) (hf : ∀ s, f ≠ .settings s) :
    Spec.ClosedWith 0x10a (step c (.readable i x)) := by
  have e : controlFrames c x.tp (f :: t) = (c, .error .missingSettings) := by
    unfold controlFrames controlFrame
    cases hc : c.remote with
    | received s => exact absurd hc (hr s)
    | notYet => cases f <;> first | rfl | exact absurd rfl (hf _)
    | zeroRtt s => cases f <;> first | rfl | exact absurd rfl (hf _)
  rw [step_frames hd ho, readable_frames hi hx, e]
  exact failWith_spec (c := c) (e := .missingSettings) ho (by intro e; cases e) (by intro e; cases e)

example : (client [.state .connected (some 2), .opened 3,
    rd 3 (.newStream .control) (.frames [.goaway 0])]).st = .closing (.app 0x10a) := by decide +kernel

theorem controlFrames_again {tp : Bool} {s : Sets} (fs : List Fr) : ∀ {c : C},
    c.remote = .received s → (∃ a, .settings a ∈ fs) ∨ .other ∈ fs →
    ∃ c', controlFrames c tp fs = (c', .error .frameUnexpected) ∧ c' = c := by
  induction fs with
  | nil => intro c _ h; rcases h with ⟨a, h⟩ | h <;> cases h
  | cons f t ih =>
    intro c hc h
    have hgo : (∃ a, .settings a ∈ t) ∨ .other ∈ t → f ≠ .other → (∀ a, f ≠ .settings a) →
        ∃ c', controlFrames c tp (f :: t) = (c', .error .frameUnexpected) ∧ c' = c := by
      intro h1 h2 h3
      obtain ⟨c', e, e'⟩ := ih hc h1
      have e1 : controlFrame c tp f = (c, .ok (some f)) := by
        unfold controlFrame
        rw [hc]
        cases f <;> first | rfl | exact absurd rfl h2 | exact absurd rfl (h3 _)
      unfold controlFrames
      rw [e1]
      dsimp only
      rw [e]
      exact ⟨c', rfl, e'⟩
    cases f with
    | settings a =>
      refine ⟨c, ?_, rfl⟩
      unfold controlFrames controlFrame handleSettings
      dsimp only
      rw [hc]
    | other =>
      refine ⟨c, ?_, rfl⟩
      unfold controlFrames controlFrame
      rw [hc]
    | _ =>
      refine hgo ?_ (by intro e; cases e) (by intro a e; cases e)
      rcases h with ⟨a, h⟩ | h
      · rcases List.mem_cons.mp h with e | h
        · cases e
        · exact Or.inl ⟨a, h⟩
      · rcases List.mem_cons.mp h with e | h
        · cases e
        · exact Or.inr h

/-- A second SETTINGS frame, anywhere among the frames read, closes the connection
(H3_FRAME_UNEXPECTED), and none of the frames read with it is acted on. So does a frame that has no
place on the control stream. -/
theorem C91_settings_once {c : C} {i : Nat} {x : In} {fs : List Fr} {s : Sets} (hd : c.dead = false)
    (ho : c.st.over = false) (hi : get c.recv i = some .control) (hx : x.first = .frames fs)
    (hr : c.remote = .received s) (hf : (∃ a, .settings a ∈ fs) ∨ .other ∈ fs) :
    Spec.ClosedWith 0x105 (step c (.readable i x)) ∧ (step c (.readable i x)).remote = .received s := by
  obtain ⟨c', e, e'⟩ := controlFrames_again (tp := x.tp) fs hr hf
  subst e'
  have hs : step c' (.readable i x) = failWith c' .frameUnexpected := by
    rw [step_frames hd ho, readable_frames hi hx, e]
    rfl
  rw [hs]
  exact ⟨failWith_spec (c := c') (e := .frameUnexpected) ho (by intro e; cases e) (by intro e; cases e),
    (failWith_track c' .frameUnexpected).1.remote s hr⟩

example : (step (client busyC) (rd 3 (.frames [.goaway 4, .settings sets]))).st = .closing (.app 0x105) := by
  decide +kernel

/-- What follows the control frames does not touch the settings. -/
theorem frames_remote {q : Bool} {c : C} (h : Inv q c) {i : Nat} {x : In} {fs : List Fr} {s : Sets}
    (hd : c.dead = false) (ho : c.st.over = false) (hi : get c.recv i = some .control)
    (hx : x.first = .frames fs) (hr : (controlFrames c x.tp fs).1.remote = .received s) :
    (step c (.readable i x)).remote = .received s := by
  rw [step_frames hd ho, readable_frames hi hx]
  have hqui := controlFrames_quiet x.tp fs c
  have hinv : Inv q (controlFrames c x.tp fs).1 :=
    h.of_still ⟨hqui.recv, hqui.send, fun j => by unfold lists; rw [hqui.sess]⟩ hqui.ctl hqui.enc hqui.dec
  have S : ∀ y : C × Option Err, y.1.remote = .received s → (settle y).remote = .received s := by
    intro y hy
    unfold settle
    split
    · exact hy
    · exact (failWith_track _ _).1.remote s hy
  split
  · rename_i c1 e hq; rw [hq] at hr; exact S _ hr
  · rename_i c1 rest hq; rw [hq] at hr hinv
    dsimp only at hr hinv
    split
    · exact S _ ((clientFrames_track rest hinv).1.remote s hr)
    · exact S _ ((serverFrames_track rest c1).1.remote s hr)

theorem controlFrames_head {c c1 : C} {tp : Bool} {f : Fr} {t : List Fr} {o : Option Fr}
    (h : controlFrame c tp f = (c1, .ok o)) : (controlFrames c tp (f :: t)).1 = (controlFrames c1 tp t).1 := by
  conv => lhs; unfold controlFrames
  rw [h]
  dsimp only
  split
  · rename_i c2 e hq; rw [hq]
  · rename_i c2 e hq; rw [hq]

/-- The settings of the peer are those of the first frame. -/
theorem C91_settings_taken {q : Bool} {r : Role} {wt udp : Bool} {c : C} (h : Reach q r wt udp c)
    {i : Nat} {x : In} {s : Sets} {t : List Fr} (hd : c.dead = false) (ho : c.st.over = false)
    (hi : get c.recv i = some .control) (hx : x.first = .frames (.settings s :: t))
    (hr : c.remote = .notYet) (hq : s.table ≤ 1073741823 ∧ s.blocked ≤ 65535) :
    (step c (.readable i x)).remote = .received s := by
  have e1 : controlFrame c x.tp (.settings s) =
      ({ features c s x.tp with remote := .received s }, .ok none) := by
    unfold controlFrame handleSettings
    dsimp only
    rw [hr]
    dsimp only
    rw [if_pos]
    unfold qpackFits
    simpa using hq
  refine frames_remote h.inv hd ho hi hx ?_
  rw [controlFrames_head e1, controlFrames_received x.tp t (s := s) rfl]

example : (client [.state .connected (some 2), .opened 3, rd 3 (.newStream .control)]).remote = .notYet ∧
    (client [.state .connected (some 2), .opened 3, rd 3 (.newStream .control),
      rd 3 (.frames [.settings sets, .goaway 8])]).remote = .received sets ∧
    (client [.state .connected (some 2), .opened 3, rd 3 (.newStream .control),
      rd 3 (.frames [.settings sets, .goaway 8])]).st = .goingAway 8 := by decide +kernel

/-- Settings that were received stay, whatever happens, until 0-RTT is rejected or the connection is
resumed anew. -/
theorem C91_settings_stay {q : Bool} {r : Role} {wt udp : Bool} {c : C} (h : Reach q r wt udp c)
    {e : Ev} (hf : Fits q c e) {s : Sets} (hs : c.remote = .received s) (hz : e ≠ .zeroRttRejected)
    (hre : c.st = .initializing → ∀ t u, e ≠ .resume t u) : (step c e).remote = .received s :=
  step_remote h.inv e hf hz hre hs

example : (step (client busyC) (.close 7)).remote = .received sets := by decide +kernel

/-- Settings that 0-RTT was used with may not be taken back: a connection that goes on after the
SETTINGS of the peer has at least the old limits, and its QPACK table has the old size if that was
not zero. -/
theorem C91_zero_rtt_settings {c : C} {i : Nat} {x : In} {old s : Sets} {t : List Fr}
    (hd : c.dead = false) (ho : c.st.over = false) (hi : get c.recv i = some .control)
    (hx : x.first = .frames (.settings s :: t)) (hr : c.remote = .zeroRtt old)
    (hn : (step c (.readable i x)).st.over = false) :
    old.maxHeader ≤ s.maxHeader ∧ old.table ≤ s.table ∧ old.blocked ≤ s.blocked ∧ old.wt ≤ s.wt ∧
    old.dgram ≤ s.dgram ∧ (old.table ≠ 0 → s.table = old.table) := by
  cases hc : compare old s with
  | error e =>
    exfalso
    have hp : e ≠ .panic ∧ e ≠ .goaway := by
      unfold compare at hc
      repeat' split at hc
      all_goals (cases hc <;> exact ⟨nofun, nofun⟩)
    have hq := features_quiet c s x.tp
    have e1 : controlFrames c x.tp (.settings s :: t) = (features c s x.tp, .error e) := by
      unfold controlFrames controlFrame handleSettings
      dsimp only
      rw [hr]
      dsimp only
      rw [hc]
    rw [step_frames hd ho, readable_frames hi hx, e1] at hn
    have := (failWith_spec (c := features c s x.tp) (e := e) (by rw [hq.st]; exact ho) hp.1 hp.2).1
    have hn' : (failWith (features c s x.tp) e).st.over = false := hn
    rw [this] at hn'; cases hn'
  | ok b =>
    unfold compare at hc
    repeat' split at hc
    all_goals first | cases hc; done | skip
    refine ⟨by omega, by omega, by omega, by omega, by omega, ?_⟩
    intro h0
    rename_i h1 h2 h3 _ _ _
    by_contra hne
    exact h3 ⟨by omega, h0⟩

example : (client [.resume sets (some 2), .state .connected none, .opened 3, rd 3 (.newStream .control),
      rd 3 (.frames [.settings sets])]).st = .connected ∧
    (client [.resume sets (some 2), .state .connected none, .opened 3, rd 3 (.newStream .control),
      rd 3 (.frames [.settings { sets with blocked := 15 }])]).st = .closing (.app 0x109) := by
  decide +kernel

/-- The setting that allows extended CONNECT is not compared: it may be taken back. -/
theorem C91_not_connect_setting :
    ∃ (i : Nat) (x : In) (c : C), Reach true .client true true c ∧
      c.remote = .zeroRtt sets ∧ get c.recv i = some .control ∧
      x.first = .frames [.settings { sets with connect := 0 }] ∧
      (step c (.readable i x)).st = .connected ∧
      (step c (.readable i x)).remote = .received { sets with connect := 0 } :=
  ⟨3, ⟨.frames [.settings { sets with connect := 0 }], .pending, fun _ => .pending, true, .ok true⟩,
    client [.resume sets (some 2), .state .connected none, .opened 3, rd 3 (.newStream .control)],
    client_reach _ (by decide +kernel), by decide +kernel, by decide +kernel, rfl, by decide +kernel,
    by decide +kernel⟩

/-! ### The order of states -/

/-- The state of a connection only moves on, and the limit of a GOAWAY only sinks; except if 0-RTT is
rejected, and except on a server whose application reads after the end. That the transport reports its
handshake only at the beginning is assumed (see C89). -/
theorem C91_states_in_order_partial {q : Bool} {r : Role} {wt udp : Bool} {c : C}
    (h : Reach q r wt udp c) {e : Ev} (hf : Fits q c e) (ho : Orderly c e) :
    c.st.rank ≤ (step c e).st.rank ∧
    ∀ g g', c.st = .goingAway g → (step c e).st = .goingAway g' → g' ≤ g :=
  (step_big h.inv e hf).forward ho

example : (client (busyC ++ [rd 3 (.frames [.goaway 8]), rd 3 (.frames [.goaway 4])])).st = .goingAway 4 ∧
    (client (busyC ++ [rd 3 (.frames [.goaway 8]), .state (.closing (.app 1)) none])).st = .closing (.app 1) := by
  decide +kernel

/-- What is missing: on a server, reading a malformed body after the transport has closed brings the
connection from closed back to closing, with a second event. -/
theorem C91_not_server_closed_again :
    ∃ (c : C), Reach true .server true true c ∧ c.st = .closed (.app 0) ∧
      (step c (.readData 0 (.fail .frame))).st = .closing (.app 0x106) ∧
      (step c (.readData 0 (.fail .frame))).log =
        c.log ++ [.closeConn 0x106, .state (.closing (.app 0x106))] :=
  ⟨server (upS ++ [.opened 0, rd 0 (.newStream .http), .state (.closed (.app 0)) none]),
    server_reach _ (by decide +kernel), by decide +kernel, by decide +kernel, by decide +kernel⟩

/-- A peer that allows fewer than three unidirectional streams is told code 3, which is no code of
HTTP/3. -/
theorem C91_not_enough_streams :
    (step (init .client true true) (.state .connected none)).st = .closing (.app 3) ∧
    .closeConn 3 ∈ (step (init .client true true) (.state .connected none)).log := by
  decide +kernel

end Neqo.H3c
