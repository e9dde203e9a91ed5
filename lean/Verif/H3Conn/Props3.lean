import Verif.H3Conn.Props2

/-!
# The HTTP/3 connection: sessions and their streams (C93)
-/

namespace Neqo.H3c

/-- A session is gone with everything that belongs to it: its own stream has no handler any more, and
neither has any stream of the session; the peer is asked to stop sending on those it sends on, and
those this end sends on are reset, with H3_REQUEST_CANCELLED. -/
structure Spec.AllCut (s : Nat) (c c' : C) : Prop where
  recv : get c'.recv s = none
  send : get c'.send s = none
  subR : ∀ i, get c.recv i = some (.wt s) → get c'.recv i = none ∧ .stopSending i 0x10c ∈ c'.log
  subS : ∀ i, get c.send i = some (.wt s) → get c'.send i = none ∧ .resetSend i 0x10c ∈ c'.log

theorem Spec.AllCut.after {s : Nat} {c c' c'' : C} (h : Spec.AllCut s c c') (k : Still c' c'')
    (b : Base c' c'') : Spec.AllCut s c c'' := by
  obtain ⟨l, hl⟩ := b.log
  have m : ∀ e, e ∈ c'.log → e ∈ c''.log := by
    intro e he; rw [hl]; exact List.mem_append_left _ he
  refine ⟨by rw [k.recv]; exact h.recv, by rw [k.send]; exact h.send, ?_, ?_⟩
  · intro i hi; rw [k.recv]; exact ⟨(h.subR i hi).1, m _ (h.subR i hi).2⟩
  · intro i hi; rw [k.send]; exact ⟨(h.subS i hi).1, m _ (h.subS i hi).2⟩

theorem Spec.AllCut.before {s : Nat} {c c' c'' : C} (h : Spec.AllCut s c' c'') (k : Still c c') :
    Spec.AllCut s c c'' :=
  ⟨h.recv, h.send, fun i hi => h.subR i (by rw [k.recv]; exact hi),
    fun i hi => h.subS i (by rw [k.send]; exact hi)⟩

/-! ### Every stream of a session is told -/

theorem cutRecv_grows (c : C) (i : Nat) :
    (∃ l, (cutRecv c i).log = c.log ++ l) ∧ Eff.stopSending i cancelled ∈ (cutRecv c i).log := by
  unfold cutRecv
  dsimp only
  refine ⟨?_, List.mem_append_right _ List.mem_cons_self⟩
  cases hg : get c.recv i with
  | none => exact ⟨_, rfl⟩
  | some k =>
    dsimp only
    have : ∃ l, (resetRecv { c with recv := del c.recv i } i k (.remote cancelled)).1.log = c.log ++ l := by
      by_cases hk : ∃ s, k = .wt s
      · obtain ⟨s, rfl⟩ := hk
        have f2 := (recvClosed_spec { c with recv := del c.recv i } i (.remote cancelled)).1
        have f3 := dropSubRecv_frame (recvClosed { c with recv := del c.recv i } i (.remote cancelled)) s i
        obtain ⟨l, hl, _⟩ := (f2.trans f3).log
        exact ⟨l, hl⟩
      · obtain ⟨l, hl, _⟩ := (resetRecv_spec { c with recv := del c.recv i } i k (.remote cancelled)
          (fun s e => hk ⟨s, e⟩)).1.log
        exact ⟨l, hl⟩
    obtain ⟨l, hl⟩ := this
    refine ⟨l ++ [.stopSending i cancelled], ?_⟩
    show _ ++ _ = _
    rw [hl, List.append_assoc]

theorem cutSend_grows (c : C) (i : Nat) :
    (∃ l, (cutSend c i).log = c.log ++ l) ∧ Eff.resetSend i cancelled ∈ (cutSend c i).log := by
  unfold cutSend
  dsimp only
  refine ⟨?_, List.mem_append_right _ List.mem_cons_self⟩
  cases hg : get c.send i with
  | none => exact ⟨_, rfl⟩
  | some k =>
    dsimp only
    have : ∃ l, (stopSend { c with send := del c.send i } i k (.remote cancelled)).log = c.log ++ l := by
      by_cases hk : ∃ s, k = .wt s
      · obtain ⟨s, rfl⟩ := hk
        have f2 := (sendClosed_spec { c with send := del c.send i } i (.remote cancelled)).1
        have f3 := dropSubSend_frame (sendClosed { c with send := del c.send i } i (.remote cancelled)) s i
        obtain ⟨l, hl, _⟩ := (f2.trans f3).log
        exact ⟨l, hl⟩
      · obtain ⟨l, hl, _⟩ := (stopSend_spec { c with send := del c.send i } i k (.remote cancelled)
          (fun s e => hk ⟨s, e⟩)).1.log
        exact ⟨l, hl⟩
    obtain ⟨l, hl⟩ := this
    refine ⟨l ++ [.resetSend i cancelled], ?_⟩
    show _ ++ _ = _
    rw [hl, List.append_assoc]

theorem foldCut_told (f : C → Nat → C) (w : Nat → Eff)
    (hf : ∀ c i, (∃ l, (f c i).log = c.log ++ l) ∧ w i ∈ (f c i).log) (l : List Nat) : ∀ c : C,
    (∃ m, (l.foldl f c).log = c.log ++ m) ∧ ∀ i ∈ l, w i ∈ (l.foldl f c).log := by
  induction l with
  | nil => intro c; exact ⟨⟨[], by simp⟩, by simp⟩
  | cons a t ih =>
    intro c
    rw [List.foldl_cons]
    obtain ⟨⟨m, hm⟩, hi⟩ := ih (f c a)
    obtain ⟨⟨l, hl⟩, ha⟩ := hf c a
    refine ⟨⟨l ++ m, by rw [hm, hl, List.append_assoc]⟩, ?_⟩
    intro i h
    rcases List.mem_cons.mp h with rfl | h
    · rw [hm]; exact List.mem_append_left _ ha
    · exact hi i h

theorem removeExt_told {c : C} {s : Nat} {x : Sess} (hx : get c.sess s = some x) :
    (∀ i ∈ x.recv, Eff.stopSending i cancelled ∈ (removeExt c s).log) ∧
      ∀ i ∈ x.send, Eff.resetSend i cancelled ∈ (removeExt c s).log := by
  unfold removeExt
  rw [hx]
  dsimp only
  obtain ⟨_, a⟩ := foldCut_told cutRecv (fun i => .stopSending i cancelled) cutRecv_grows x.recv
    (c.setSess s { x with recv := [], send := [] })
  obtain ⟨⟨m, hm⟩, b⟩ := foldCut_told cutSend (fun i => .resetSend i cancelled) cutSend_grows x.send
    (x.recv.foldl cutRecv (c.setSess s { x with recv := [], send := [] }))
  exact ⟨fun i hi => by rw [hm]; exact List.mem_append_left _ (a i hi), b⟩

/-- Removing either half of a session's stream. -/
theorem removeSession {c : C} (h : Inv true c) {s : Nat} (hs : get c.recv s = some .session) :
    ∃ d f, removeRecv c s = (d, some .session) ∧ removeSend c s = (d, some (.session f)) ∧
      Spec.AllCut s c d ∧ Frame c d := by
  obtain ⟨⟨p, hp⟩, f, hf⟩ := h.pairR s hs
  obtain ⟨a, b⟩ := p
  have e1 : get (del c.recv s) s = none := by rw [get_del, if_pos rfl]
  have e2 : get (del c.send s) s = none := by rw [get_del, if_pos rfl]
  refine ⟨removeExt { c with recv := del c.recv s, send := del c.send s } s, f, ?_, ?_, ?_, ?_⟩
  · unfold removeRecv
    rw [hs]
    show (match get c.send s with | none => _ | some _ => _) = _
    rw [hf]
    rfl
  · unfold removeSend
    rw [hf]
    show (match get c.recv s with | none => _ | some _ => _) = _
    rw [hs]
    rfl
  all_goals
    have hp' : lists { c with recv := del c.recv s, send := del c.send s } s = some (a, b) := hp
    have hr : ∀ i ∈ a, get (del c.recv s) i = some (.wt s) := by
      intro i hi
      have := h.subR s a b i hp hi
      rw [get_del, if_neg]
      · exact this
      · rintro rfl; rw [hs] at this; cases this
    have hsd : ∀ i ∈ b, get (del c.send s) i = some (.wt s) := by
      intro i hi
      have := h.subS s a b i hp hi
      rw [get_del, if_neg]
      · exact this
      · rintro rfl; rw [hf] at this; cases this
    obtain ⟨fr, _, gr, gs⟩ := removeExt_spec hp' hr hsd
  · cases hx : get c.sess s with
    | none => simp [lists, hx] at hp
    | some x =>
      rw [lists_some hx] at hp
      injection hp with hp
      injection hp with ha hb
      have told := removeExt_told (c := { c with recv := del c.recv s, send := del c.send s }) (s := s) hx
      refine ⟨?_, ?_, ?_, ?_⟩
      · rw [gr]; split
        · rfl
        · exact e1
      · rw [gs]; split
        · rfl
        · exact e2
      · intro i hi
        obtain ⟨a', b', hl, hm⟩ := h.regR rfl i s hi
        rw [lists_some hx] at hl
        injection hl with hl
        injection hl with hl1 hl2
        refine ⟨?_, told.1 i (by rw [hl1]; exact hm)⟩
        rw [gr, if_pos (by rw [← ha, hl1]; exact hm)]
      · intro i hi
        obtain ⟨a', b', hl, hm⟩ := h.regS rfl i s hi
        rw [lists_some hx] at hl
        injection hl with hl
        injection hl with hl1 hl2
        refine ⟨?_, told.2 i (by rw [hl2]; exact hm)⟩
        rw [gs, if_pos (by rw [← hb, hl2]; exact hm)]
  · exact (Frame.tables c _ _).trans fr

/-! ### The theorems -/

/-- Every stream of a session that has a handler belongs to a session that is there, on both halves.
Missing: streams of the peer that name a session whose end has been seen but which is not gone yet
(`C93_not_late_stream`). -/
theorem C93_streams_have_session_partial {r : Role} {wt udp : Bool} {c : C} (h : Reach true r wt udp c)
    {i s : Nat} (hi : get c.recv i = some (.wt s) ∨ get c.send i = some (.wt s)) :
    get c.recv s = some .session ∧ ∃ f, get c.send s = some (.session f) := by
  have I := h.inv
  have key : ∀ a b, lists c s = some (a, b) → (i ∈ a ∨ i ∈ b) → get c.recv s = some .session := by
    intro a b hl hm
    by_contra hn
    obtain ⟨rfl, rfl⟩ := I.gone s a b hl hn
    rcases hm with hm | hm <;> cases hm
  have hs : get c.recv s = some .session := by
    rcases hi with hi | hi
    · obtain ⟨a, b, hl, hm⟩ := I.regR rfl i s hi; exact key a b hl (Or.inl hm)
    · obtain ⟨a, b, hl, hm⟩ := I.regS rfl i s hi; exact key a b hl (Or.inr hm)
  exact ⟨hs, (I.pairR s hs).2⟩

example : ∃ c, Reach true .client true true c ∧ get c.recv 15 = some (.wt 8) ∧
    get c.send 12 = some (.wt 8) :=
  ⟨client busyC, client_reach _ (by decide +kernel), by decide +kernel, by decide +kernel⟩

/-- A session is reported to have started at most once, and only on a stream this end has opened. -/
theorem C93_started_once {q : Bool} {r : Role} {wt udp : Bool} {c : C} (h : Reach q r wt udp c)
    (s : Nat) :
    c.log.count (.sessionStart s) ≤ 1 ∧ (.sessionStart s ∈ c.log → .opened s ∈ c.log) := by
  have o := h.all.2.1 s
  have o1 : c.log.count (.sessionStart s) + neg c s ≤ c.log.count (.opened s) := o.1
  have o2 : c.log.count (.opened s) ≤ 1 := o.2
  refine ⟨by omega, ?_⟩
  intro hm
  have := List.count_pos_iff.mpr hm
  exact List.count_pos_iff.mp (by omega)

example : (client busyC).log.count (.sessionStart 8) = 1 := by decide +kernel

/-- What ends a session that has its streams: the peer ends its side of the stream, with or without a
close message; it resets the stream or asks to stop sending on it; the application ends the session
or gives up either half of the stream. -/
inductive Spec.Ends (s : Nat) : Ev → Prop
  | fin (x : In) (close : Option Nat) (h : x.first = .sess ⟨none, none, false, close, true⟩) :
      Ends s (.readable s x)
  | reset (code : Nat) : Ends s (.resetIn s code)
  | stop (code : Nat) : Ends s (.stopIn s code)
  | appReset (code : Nat) : Ends s (.resetSend s code)
  | appStop (code : Nat) : Ends s (.stopRecv s code)

theorem readControl_fin {c : C} {s : Nat} {x : Sess} (hx : get c.sess s = some x) (cl : Option Nat) :
    ∃ c', readControl c s ⟨none, none, false, cl, true⟩ = (c', none) ∧ sessDone c' s = true ∧
      (x.udp = false → .sessionEnd s (.clean (cl.getD 0)) ∈ c'.log) := by
  have D : ∀ (d : C) (y : Sess), y.st = .done → sessDone (d.setSess s y) s = true := by
    intro d y hy
    unfold sessDone
    show (match get (put d.sess s y) s with | some s => s.st == .done | none => false) = true
    rw [get_put, if_pos rfl]
    simp [hy]
  cases hu : x.udp with
  | true =>
    refine ⟨(c.emit (.sessionEnd s (.clean 0))).setSess s { x with st := .done }, ?_, D _ _ rfl, nofun⟩
    unfold readControl
    rw [hx]
    dsimp only
    rw [hu]
    cases cl <;> rfl
  | false =>
    cases cl with
    | none =>
      refine ⟨(c.emit (.sessionEnd s (.clean 0))).setSess s { x with st := .done }, ?_, D _ _ rfl,
        fun _ => List.mem_append_right _ List.mem_cons_self⟩
      unfold readControl
      rw [hx]
      dsimp only
      rw [hu]
      rfl
    | some e =>
      refine ⟨(c.emit (.sessionEnd s (.clean e))).setSess s { x with st := .done }, ?_, D _ _ rfl,
        fun _ => List.mem_append_right _ List.mem_cons_self⟩
      unfold readControl
      rw [hx]
      dsimp only
      rw [hu]
      rfl

theorem sessReceive_fin {c : C} {s : Nat} {x : Sess} (hx : get c.sess s = some x) (cl : Option Nat) :
    ∃ c', sessReceive c s ⟨none, none, false, cl, true⟩ = (c', .ok true) ∧
      (x.udp = false → .sessionEnd s (.clean (cl.getD 0)) ∈ c'.log) := by
  obtain ⟨c', e, d, l⟩ := readControl_fin hx cl
  refine ⟨c', ?_, l⟩
  unfold sessReceive
  rw [hx]
  dsimp only
  have hc : checkHeaders c s x none = (c, none) := by
    unfold checkHeaders; split <;> rfl
  rw [hc]
  dsimp only
  rw [e]
  dsimp only
  rw [d]

/-- The stream of a session that ends on the peer's side. -/
theorem step_fin {c : C} (h : Inv true c) {s : Nat} (hd : c.dead = false) (ho : c.st.over = false)
    (hs : get c.recv s = some .session) {x : In} {cl : Option Nat}
    (hx : x.first = .sess ⟨none, none, false, cl, true⟩) :
    ∃ y, get c.sess s = some y ∧ Spec.AllCut s c (step c (.readable s x)) ∧
      (y.udp = false → .sessionEnd s (.clean (cl.getD 0)) ∈ (step c (.readable s x)).log) := by
  obtain ⟨⟨p, hp⟩, f, hf⟩ := h.pairR s hs
  cases hy : get c.sess s with
  | none => simp [lists, hy] at hp
  | some y =>
    refine ⟨y, rfl, ?_⟩
    obtain ⟨c1, e1, l1⟩ := sessReceive_fin hy cl
    obtain ⟨b1, k1⟩ := sessReceive_spec c s ⟨none, none, false, cl, true⟩
    rw [e1] at b1 k1
    have hs1 : get c1.recv s = some .session := by rw [k1.recv]; exact hs
    obtain ⟨d, f', r1, r2, r3, r4⟩ := removeSession (h.of_base k1 b1) hs1
    have e : step c (.readable s x) = d := by
      rw [step_frames hd ho]
      have er : streamReceive c s x.first = (d, .ok .none) := by
        unfold streamReceive
        rw [hs, hx]
        dsimp only
        unfold receive
        dsimp only
        rw [e1]
        unfold afterRead
        dsimp only
        rw [r1]
      have eb : readableBase c s x.first x.second x = (d, .ok .none) := by
        unfold readableBase
        rw [er]
        rfl
      unfold readable
      rw [eb]
      rfl
    rw [e]
    exact ⟨r3.before k1, fun hu => r4.mem (l1 hu)⟩

/-- When a session ends, everything that belongs to it goes with it. -/
theorem C93_all_streams_end {r : Role} {wt udp : Bool} {c : C} (h : Reach true r wt udp c) {s : Nat}
    (hd : c.dead = false) (ho : c.st.over = false) (hs : get c.recv s = some .session)
    (hb : s / 2 % 2 = 0) {e : Ev} (he : Spec.Ends s e) : Spec.AllCut s c (step c e) := by
  have I := h.inv
  obtain ⟨d, f, r1, r2, r3, r4⟩ := removeSession I hs
  have hcr : sendCritical c s = false := by
    cases hq : sendCritical c s with
    | false => rfl
    | true => have := I.own s hq; unfold isUni at this; simp at this; omega
  have hrc : recvCritical c s = false := by unfold recvCritical; rw [hs]; rfl
  have CS : ∀ ct, Spec.AllCut s c (closeSession d s ct) := by
    intro ct
    obtain ⟨a, b⟩ := closeSession_spec d s ct
    exact r3.after b a.base
  have hcS : ∀ ct, closeSend c s ct = closeSession d s ct := by
    intro ct; unfold closeSend; rw [r2]; rfl
  have hcR : ∀ ct, closeRecv c s ct = (closeSession d s ct, none) := by
    intro ct; unfold closeRecv; rw [r1]; rfl
  have E : ∀ {c' : C} (e : Eff), Spec.AllCut s c c' → Spec.AllCut s c (c'.emit e) := by
    intro c' e k; exact k.after (Still.emit _ _) (Base.emit _ _)
  cases he with
  | fin x cl hx =>
    obtain ⟨_, _, k, _⟩ := step_fin I hd ho hs hx
    exact k
  | reset code =>
    have : step c (.resetIn s code) = closeSession d s (.remote code) := by
      unfold step
      rw [hd, if_neg (by simp)]
      dsimp only
      rw [open_of ho, if_neg (by simp), hcR]
      rfl
    rw [this]; exact CS _
  | stop code =>
    have : step c (.stopIn s code) = closeSession d s (.remote code) := by
      unfold step
      rw [hd, if_neg (by simp)]
      dsimp only
      rw [open_of ho, if_neg (by simp)]
      unfold handleStop
      rw [hcr, if_neg (by simp), hcS]
      rfl
    rw [this]; exact CS _
  | appReset code =>
    have : step c (.resetSend s code) = (closeSession d s (.app code)).emit (.resetSend s code) := by
      unfold step
      rw [hd, if_neg (by simp)]
      dsimp only
      unfold resetSend
      rw [hcr, if_neg (by simp), hcS]
      rfl
    rw [this]; exact E _ (CS _)
  | appStop code =>
    have : step c (.stopRecv s code) = (closeSession d s (.app code)).emit (.stopSending s code) := by
      unfold step
      rw [hd, if_neg (by simp)]
      dsimp only
      unfold stopRecv
      rw [hrc, if_neg (by simp), hcR]
      rfl
    rw [this]; exact E _ (CS _)

example : (step (client busyC) (rd 8 (.sess ⟨none, none, false, some 7, true⟩))).recv =
    [(4, .http), (0, .http), (11, .decoder), (7, .encoder), (3, .control)] := by decide +kernel

/-- The same when the application ends the session and everything can be written at once. -/
theorem C93_all_streams_end_local {r : Role} {wt udp : Bool} {c : C} (h : Reach true r wt udp c)
    {s : Nat} {y : Sess} (hd : c.dead = false) (hs : get c.recv s = some .session)
    (hy : get c.sess s = some y) :
    Spec.AllCut s c (step c (.endSession s y.udp true)) := by
  have I := h.inv
  obtain ⟨_, f, hf⟩ := I.pairR s hs
  have k : Still c (c.setSess s { y with st := .done }) := Still.setSess hy rfl rfl
  have b : Base c (c.setSess s { y with st := .done }) := (Frame.setSess ..).base
  obtain ⟨d, f', _, r2, r3, _⟩ := removeSession (I.of_base k b) (by rw [k.recv]; exact hs)
  have : step c (.endSession s y.udp true) = d := by
    unfold step
    rw [hd, if_neg (by simp)]
    dsimp only
    have hg : getSession c s = some y := by unfold getSession; rw [hs]; exact hy
    unfold endSession
    rw [hg]
    dsimp only
    rw [if_neg (by simp), hf]
    show keep (finish c s (.session f) true, none) = _
    unfold finish
    dsimp only
    rw [hy]
    dsimp only
    rw [if_pos rfl, r2]
    rfl
  rw [this]
  exact r3.before k

example : (step (client busyC) (.endSession 8 false true)).recv =
    [(4, .http), (0, .http), (11, .decoder), (7, .encoder), (3, .control)] := by decide +kernel

/-- The application learns the code with which the peer has closed a WebTransport session. -/
theorem C93_end_reported {r : Role} {wt udp : Bool} {c : C} (h : Reach true r wt udp c) {s : Nat}
    {y : Sess} (hd : c.dead = false) (ho : c.st.over = false) (hs : get c.recv s = some .session)
    (hy : get c.sess s = some y) (hu : y.udp = false) {x : In} {cl : Option Nat}
    (hx : x.first = .sess ⟨none, none, false, cl, true⟩) :
    .sessionEnd s (.clean (cl.getD 0)) ∈ (step c (.readable s x)).log := by
  obtain ⟨y', e, _, k⟩ := step_fin h.inv hd ho hs hx
  rw [hy] at e
  cases e
  exact k hu

example : .sessionEnd 8 (.clean 7) ∈ (step (client busyC) (rd 8 (.sess ⟨none, none, false, some 7, true⟩))).log := by
  decide +kernel

/-- Streams can be opened only in a session that has started and has not ended; otherwise nothing
changes. -/
theorem C93_open_only_active {c : C} {s : Nat} (id : Option Nat)
    (hs : get c.recv s ≠ some .session ∨ ∀ x, get c.sess s = some x → x.st ≠ .active) :
    step c (.openStream s id) = c := by
  have e : openStream c s id = (c, .error .invalidStreamId) := by
    unfold openStream
    split
    · rfl
    · rename_i x hx
      obtain ⟨h1, h2⟩ : get c.recv s = some .session ∧ get c.sess s = some x := by
        unfold getSession at hx
        split at hx
        · rename_i h; exact ⟨h, hx⟩
        · cases hx
      rcases hs with h | h
      · exact absurd h1 h
      · rw [if_neg (h x h2)]
  unfold step
  split
  · rfl
  · dsimp only
    rw [e]
    rfl

example : get (client (upC ++ [.createSession false (some 0) none])).recv 0 = some .session ∧
    step (client (upC ++ [.createSession false (some 0) none])) (.openStream 0 (some 4)) =
      client (upC ++ [.createSession false (some 0) none]) :=
  ⟨by decide +kernel, C93_open_only_active _ (Or.inr (by decide +kernel))⟩

/-- A stream of the peer that names something that is not a session, nor a CONNECT, is refused
(H3_STREAM_CREATION_ERROR); it gets no handler, and the connection goes on. -/
theorem C93_no_such_session {c : C} {i s : Nat} {x : In} (hd : c.dead = false) (ho : c.st.over = false)
    (hi : get c.recv i = some .head) (hx : x.first = .newStream (.wt s))
    (hs : ∀ k, get c.send s = some k → (∀ f, k ≠ .session f) ∧ ∀ f, k ≠ .connect f) :
    step c (.readable i x) =
      ({ c with recv := del c.recv i }).emit (.stopSending i 0x103) := by
  have hsr : streamReceive c i (.newStream (.wt s)) =
      ({ c with recv := del c.recv i }, .ok (.newStream (.wt s))) := by
    unfold streamReceive
    rw [hi]
    show afterRead c i (.ok (.newStream (.wt s), true)) = _
    unfold afterRead removeRecv
    dsimp only
    rw [hi]
    rfl
  have hns : newStream { c with recv := del c.recv i } (.wt s) i x.second =
      (({ c with recv := del c.recv i }).emit (.stopSending i 0x103), .ok .none) := by
    unfold newStream
    dsimp only
    cases hk : get c.send s with
    | none => rfl
    | some k =>
      have := hs k hk
      cases k with
      | session f => exact absurd rfl (this.1 f)
      | connect f => exact absurd rfl (this.2 f)
      | _ => rfl
  rw [step_frames hd ho]
  unfold readable readableBase
  rw [hx, hsr]
  dsimp only
  rw [hns]
  rfl

example : (client (busyC ++ [.opened 19, rd 19 (.newStream (.wt 4))])).st = .connected ∧
    get (client (busyC ++ [.opened 19, rd 19 (.newStream (.wt 4))])).recv 19 = none := by decide +kernel

/-! ### What the code does otherwise -/

/-- What a session's stream carries when the peer closes the session without ending the stream. -/
def closeMsg (e : Nat) : Ev := rd 8 (.sess ⟨none, none, false, some e, false⟩)

/-- The end of a session can be reported more than once, and with different codes: the session waits
for the end of the stream and reads on. -/
theorem C93_not_end_once :
    ∃ c, Reach true .client true true c ∧ .sessionEnd 8 (.clean 1) ∈ c.log ∧
      .sessionEnd 8 (.clean 2) ∈ c.log ∧ .sessionEnd 8 (.clean 0) ∈ c.log :=
  ⟨client (busyC ++ [closeMsg 1, closeMsg 2, rd 8 (.sess ⟨none, none, false, none, true⟩)]),
    client_reach _ (by decide +kernel), by decide +kernel, by decide +kernel, by decide +kernel⟩

/-- A refused session is reported as refused, and after that as ended cleanly. -/
theorem C93_not_refused_once :
    ∃ c, Reach true .client true true c ∧ .sessionEnd 0 (.status 404) ∈ c.log ∧
      .sessionEnd 0 (.clean 0) ∈ c.log :=
  ⟨client (upC ++ [.createSession false (some 0) none,
      rd 0 (.sess ⟨none, some ⟨false, true, some 404⟩, false, none, true⟩)]),
    client_reach _ (by decide +kernel), by decide +kernel, by decide +kernel⟩

/-- A stream that arrives for a session whose close message has been read, but whose stream has not
ended, stays when the session goes: it has a handler, its session has none, and it was neither
stopped nor announced. -/
theorem C93_not_late_stream :
    ∃ c, Reach false .client true true c ∧ get c.recv 19 = some (.wt 8) ∧ get c.recv 8 = none ∧
      (∀ n, .stopSending 19 n ∉ c.log) ∧ .sessionStream 8 19 ∉ c.log := by
  refine ⟨step (step (client (busyC ++ [closeMsg 1, .opened 19])) (rd 19 (.newStream (.wt 8))))
      (rd 8 (.sess ⟨none, none, false, none, true⟩)), ?_, by decide +kernel, by decide +kernel, ?_,
    by decide +kernel⟩
  · have h1 : Reach false .client true true (client (busyC ++ [closeMsg 1, .opened 19])) :=
      reach_run _ .init (by decide +kernel)
    have h2 := h1.step (rd 19 (.newStream (.wt 8))) (by
      intro t ht
      cases ht
      refine ⟨by decide +kernel, by decide +kernel, ?_⟩
      intro s x _ _ e
      cases e)
    exact h2.step _ (fitsB_sound false (by decide +kernel))
  · intro n hn
    have : (step (step (client (busyC ++ [closeMsg 1, .opened 19])) (rd 19 (.newStream (.wt 8))))
        (rd 8 (.sess ⟨none, none, false, none, true⟩))).log.all
          (fun e => match e with | .stopSending i _ => i != 19 | _ => true) = true := by decide +kernel
    have := List.all_eq_true.mp this _ hn
    cases this

/-- A stream that names a classic CONNECT as its session closes the connection, where one that names
a request is refused; the code is that of a transport error. -/
theorem C93_not_connect_as_session :
    ∃ c, Reach true .client true true c ∧ get c.recv 0 = some .connect ∧ get c.recv 15 = some .head ∧
      (step c (rd 15 (.newStream (.wt 0)))).st = .closing (.app 3) :=
  ⟨client (upC ++ [.request .connect (some 0) none, .opened 15]), client_reach _ (by decide +kernel),
    by decide +kernel, by decide +kernel, by decide +kernel⟩

/-- A session whose request could not be made stays: the application has been given an error and no
stream, but the session is there. -/
theorem C93_not_failed_session :
    ∃ c, Reach true .client true true c ∧
      (let c' := step c (.createSession false (some 0) (some .invalidHeader))
       get c'.recv 0 = some .session) :=
  ⟨client upC, client_reach _ (by decide +kernel), by decide +kernel⟩

/-- A stream that came before the session had started, and was reset since, is announced all the same
when the session starts. -/
theorem C93_not_pending_reset :
    ∃ c, Reach true .client true true c ∧ get c.recv 15 = none ∧ .sessionStream 0 15 ∈ c.log ∧
      c.log.idxOf (.reset 15 9) < c.log.idxOf (.sessionStream 0 15) :=
  ⟨client (upC ++ [.createSession false (some 0) none, .opened 15, rd 15 (.newStream (.wt 0)),
      .resetIn 15 9, rd 0 (.sess ⟨none, some ⟨false, false, some 200⟩, false, none, false⟩)]),
    client_reach _ (by decide +kernel), by decide +kernel, by decide +kernel, by decide +kernel⟩

end Neqo.H3c
