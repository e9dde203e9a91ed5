import Verif.H3Conn.Props

/-!
# The HTTP/3 connection: requests and GOAWAY (C92)
-/

namespace Neqo.H3c

/-- The streams of requests a client has made: messages and sessions. -/
def Spec.RequestR (k : RK) : Prop := k = .http ∨ k = .connect ∨ k = .session

/-- The same for the sending side. -/
def Spec.RequestS (k : SK) : Prop := (∃ f, k = .http f) ∨ (∃ f, k = .connect f) ∨ ∃ f, k = .session f

/-! ### Requests -/

/-- Requests and sessions are refused while there is no connection, after a GOAWAY and once the
connection is closing; nothing changes then. -/
theorem C92_refused {c : C} (hs : c.st ≠ .zeroRtt ∧ c.st ≠ .connected) (w : Req) (udp : Bool)
    (id : Option Nat) (bad : Option Err) :
    step c (.request w id bad) = c ∧ step c (.createSession udp id bad) = c := by
  have e : ∃ x, openBidi c id = (c, .error x) ∧ (x = .alreadyClosed ∨ x = .unavailable) := by
    unfold openBidi
    cases h : c.st with
    | zeroRtt => exact absurd h hs.1
    | connected => exact absurd h hs.2
    | initializing => exact ⟨.unavailable, rfl, Or.inr rfl⟩
    | _ => exact ⟨.alreadyClosed, rfl, Or.inl rfl⟩
  obtain ⟨x, e, hx⟩ := e
  constructor
  · unfold step
    split
    · rfl
    · dsimp only
      split
      · unfold request
        rw [e]
        rcases hx with rfl | rfl <;> rfl
      · rfl
  · unfold step
    split
    · rfl
    · dsimp only
      split
      · unfold createSession
        rw [e]
        by_cases hn : (if udp then c.udpF else c.wtF) ≠ Nego.negotiated
        · rw [if_pos hn]; rfl
        · rw [if_neg hn]
          rcases hx with rfl | rfl <;> rfl
      · rfl

example : (client (busyC ++ [rd 3 (.frames [.goaway 12])])).st = .goingAway 12 := by decide +kernel

/-- Otherwise a request is made on the stream the transport gives, and both halves of the stream
have a handler for it; no other stream is touched. -/
theorem C92_made {c : C} (hd : c.dead = false) (hr : c.role = .client)
    (hs : c.st = .zeroRtt ∨ c.st = .connected) (w : Req) (i : Nat) :
    let c' := step c (.request w (some i) none)
    .opened i ∈ c'.log ∧ c'.st = c.st ∧
    get c'.recv i = some (if w = .fetch then .http else .connect) ∧
    get c'.send i = some (if w = .fetch then .http false else .connect false) ∧
    ∀ j, j ≠ i → get c'.recv j = get c.recv j ∧ get c'.send j = get c.send j := by
  have e : openBidi c (some i) = (c.emit (.opened i), .ok i) := by
    unfold openBidi
    rcases hs with h | h <;> rw [h]
  have e2 : step c (.request w (some i) none) = (request c w (some i) none).1 := by
    unfold step
    rw [hd, if_neg (by simp)]
    dsimp only
    rw [if_pos hr]
    unfold request
    rw [e]
    cases w <;> rfl
  intro c'
  have ec : c' = (request c w (some i) none).1 := e2
  unfold request at ec
  rw [e] at ec
  cases w with
  | fetch =>
    rw [ec]
    refine ⟨List.mem_append_right _ List.mem_cons_self, rfl, ?_, ?_, ?_⟩
    · show get (put c.recv i .http) i = _; rw [get_put, if_pos rfl]; rfl
    · show get (put c.send i (.http false)) i = _; rw [get_put, if_pos rfl]; rfl
    · intro j hj
      exact ⟨by show get (put c.recv i .http) j = _; rw [get_put, if_neg hj],
        by show get (put c.send i (.http false)) j = _; rw [get_put, if_neg hj]⟩
  | connect =>
    rw [ec]
    refine ⟨List.mem_append_right _ List.mem_cons_self, rfl, ?_, ?_, ?_⟩
    · show get (put c.recv i .connect) i = _; rw [get_put, if_pos rfl]; rfl
    · show get (put c.send i (.connect false)) i = _; rw [get_put, if_pos rfl]; rfl
    · intro j hj
      exact ⟨by show get (put c.recv i .connect) j = _; rw [get_put, if_neg hj],
        by show get (put c.send i (.connect false)) j = _; rw [get_put, if_neg hj]⟩

example : (client upC).dead = false ∧ (client upC).role = .client ∧ (client upC).st = .connected := by
  decide +kernel

/-! ### GOAWAY -/

/-- What a client does with a GOAWAY it reads after the settings. -/
theorem step_goaway {c : C} {i : Nat} {x : In} {g : Nat} {s : Sets} (hd : c.dead = false)
    (ho : c.st.over = false) (hr : c.role = .client) (hi : get c.recv i = some .control)
    (hs : c.remote = .received s) (hx : x.first = .frames [.goaway g]) :
    step c (.readable i x) = settle (handleGoaway c g) := by
  have e : controlFrames c x.tp [.goaway g] = (c, .ok [.goaway g]) := by
    unfold controlFrames controlFrame
    rw [hs]
    rfl
  rw [step_frames hd ho, readable_frames hi hx, e]
  dsimp only
  rw [hr]
  dsimp only
  unfold clientFrames
  dsimp only
  cases hq : handleGoaway c g with
  | mk c1 o => cases o <;> rfl

/-- A GOAWAY that does not name a bidirectional stream of a client closes the connection (H3_ID_ERROR),
and so does one that names a larger stream than the one before. -/
theorem C92_goaway_refused {c : C} {i : Nat} {x : In} {g : Nat} {s : Sets} (hd : c.dead = false)
    (ho : c.st.over = false) (hr : c.role = .client) (hi : get c.recv i = some .control)
    (hs : c.remote = .received s) (hx : x.first = .frames [.goaway g]) :
    (g % 4 ≠ 0 → Spec.ClosedWith 0x108 (step c (.readable i x))) ∧
    (∀ old, g % 4 = 0 → c.st = .goingAway old → old < g →
      Spec.ClosedWith 0x101 (step c (.readable i x))) := by
  rw [step_goaway hd ho hr hi hs hx]
  constructor
  · intro hg
    have e : handleGoaway c g = (c, some .id) := by
      unfold handleGoaway
      rw [if_pos]
      unfold isUni isServerInit
      simp
      omega
    rw [e]
    exact failWith_spec (c := c) (e := .id) ho (by intro e; cases e) (by intro e; cases e)
  · intro old hg hst hlt
    have e : handleGoaway c g = (c, some .goaway) := by
      unfold handleGoaway
      rw [if_neg]
      · rw [hst]
        dsimp only
        rw [if_pos hlt]
      · unfold isUni isServerInit
        simp
        omega
    rw [e]
    show Spec.ClosedWith 0x101 (failWith c .goaway)
    unfold failWith
    dsimp only
    rw [hr]
    exact closeWith_spec _ ho

example : (client (busyC ++ [rd 3 (.frames [.goaway 4]), rd 3 (.frames [.goaway 8])])).st = .closing (.app 0x101) ∧
    (client (busyC ++ [rd 3 (.frames [.goaway 1])])).st = .closing (.app 0x108) := by decide +kernel

/-- After a GOAWAY that names stream `g`: the connection goes away with that limit and the application
is told; no bidirectional stream from `g` on is left; the requests among them are reported with
H3_REQUEST_REJECTED, on the half that was still open; requests below `g` and the streams that keep the
connection going are as they were. -/
theorem C92_goaway {q : Bool} {wt udp : Bool} {c : C} (h : Reach q .client wt udp c) {i : Nat} {x : In}
    {g : Nat} {s : Sets} (hd : c.dead = false) (hi : get c.recv i = some .control)
    (hs : c.remote = .received s) (hx : x.first = .frames [.goaway g]) (hg : g % 4 = 0)
    (hst : c.st = .connected ∨ ∃ old, c.st = .goingAway old ∧ g ≤ old) :
    let c' := step c (.readable i x)
    c'.st = .goingAway g ∧ .goaway ∈ c'.log ∧
    (∀ j, j / 2 % 2 = 0 → g ≤ j → get c'.recv j = none ∧ get c'.send j = none) ∧
    (∀ j, j / 2 % 2 = 0 → g ≤ j →
      (get c.recv j = some .http → .reset j 0x10b ∈ c'.log) ∧
      (get c.send j = some (.http false) → .stopped j 0x10b ∈ c'.log)) ∧
    (∀ j, j / 2 % 2 = 1 ∨ j < g →
      (∀ k, Spec.RequestR k ∨ Spec.Critical k → get c.recv j = some k → get c'.recv j = some k) ∧
      (∀ k, Spec.RequestS k → get c.send j = some k → get c'.send j = some k)) := by
  have hr : c.role = .client := h.all.1
  have ho : c.st.over = false := by
    rcases hst with e | ⟨old, e, _⟩ <;> rw [e] <;> rfl
  intro c'
  have ec : c' = settle (handleGoaway c g) := step_goaway hd ho hr hi hs hx
  cases hq : handleGoaway c g with
  | mk c1 o =>
    have hon : o = none := by
      unfold handleGoaway at hq
      rw [if_neg (by unfold isUni isServerInit; simp; omega)] at hq
      rcases hst with e | ⟨old, e, hle⟩
      · rw [e] at hq; injection hq with _ e2; exact e2.symm
      · rw [e] at hq
        dsimp only at hq
        rw [if_neg (show ¬ old < g by omega)] at hq
        injection hq with _ e2; exact e2.symm
    subst hon
    rw [hq] at ec
    have ec' : c' = c1 := ec
    obtain ⟨g1, g2, g3, g4, g5, g6⟩ := handleGoaway_given h.inv hq
    have U : ∀ j, isUni j = false ↔ j / 2 % 2 = 0 := by
      intro j; unfold isUni; simp
    have U' : ∀ j, isUni j = true ↔ j / 2 % 2 = 1 := by
      intro j; unfold isUni; simp
    rw [ec']
    refine ⟨?_, g4, ?_, ?_, ?_⟩
    · rcases g6 with ⟨e, _⟩ | e
      · rw [ho] at e; cases e
      · exact e
    · intro j hj hle; exact g3.gone j ((U j).mpr hj) hle
    · intro j hj hle
      exact ⟨g3.toldR j ((U j).mpr hj) hle, g3.toldS j ((U j).mpr hj) hle⟩
    · intro j hj
      have hj' : isUni j = true ∨ j < g := hj.imp (U' j).mpr id
      constructor
      · intro k hk e
        refine g3.keepR j k hj' e ?_
        intro s' e'; subst e'
        rcases hk with (e | e | e) | (e | e | e) <;> cases e
      · intro k hk e
        refine g3.keepS j k hj' e ?_
        intro s' e'; subst e'
        rcases hk with ⟨f, e⟩ | ⟨f, e⟩ | ⟨f, e⟩ <;> cases e

example : (step (client busyC) (rd 3 (.frames [.goaway 4]))).recv =
      [(0, .http), (11, .decoder), (7, .encoder), (3, .control)] ∧
    (step (client busyC) (rd 3 (.frames [.goaway 4]))).log.contains (.reset 4 0x10b) = true := by
  decide +kernel

/-- From then on there is never a request at or above the limit: not by new requests, and not by
anything the peer does. -/
theorem C92_below_limit {q : Bool} {wt udp : Bool} {c : C} (h : Reach q .client wt udp c) {g j : Nat}
    (hg : c.st = .goingAway g) (hj : j / 2 % 2 = 0) (hle : g ≤ j) :
    (∀ k, get c.recv j = some k → ¬ Spec.RequestR k) ∧
    (∀ k, get c.send j = some k → ¬ Spec.RequestS k) := by
  have U : isUni j = false := by unfold isUni; simp [hj]
  obtain ⟨a, b⟩ := h.all.2.2 rfl g hg j U hle
  constructor
  · intro k hk hq
    have := a k hk
    rcases hq with rfl | rfl | rfl <;> cases this
  · intro k hk hq
    have := b k hk
    rcases hq with ⟨f, rfl⟩ | ⟨f, rfl⟩ | ⟨f, rfl⟩ <;> cases this

example : ∃ c, Reach true .client true true c ∧ c.st = .goingAway 4 ∧ get c.recv 0 = some .http :=
  ⟨client (busyC ++ [rd 3 (.frames [.goaway 4])]), client_reach _ (by decide +kernel), by decide +kernel,
    by decide +kernel⟩

/-! ### What the code does otherwise -/

/-- A request below the limit of a GOAWAY can be lost: a bidirectional stream of a session is cut off
if its own number is above the limit, though the session and its streams go on. -/
theorem C92_not_session_streams :
    ∃ (c : C), Reach true .client true true c ∧ get c.recv 8 = some .session ∧
      get c.recv 12 = some (.wt 8) ∧
      (let c' := step c (rd 3 (.frames [.goaway 12]))
       get c'.recv 8 = some .session ∧ get c'.recv 12 = none ∧ .reset 12 0x10b ∈ c'.log) :=
  ⟨client busyC, client_reach _ (by decide +kernel), by decide +kernel, by decide +kernel,
    by decide +kernel⟩

/-- A request whose headers are refused leaves the stream that was opened for it behind: it is open in
the transport, and nothing here knows it. -/
theorem C92_not_failed_request :
    ∃ (c : C), Reach true .client true true c ∧
      (let c' := step c (.request .fetch (some 0) (some .invalidHeader))
       .opened 0 ∈ c'.log ∧ get c'.recv 0 = none ∧ get c'.send 0 = none ∧
       ∀ n, .resetSend 0 n ∉ c'.log) := by
  refine ⟨client upC, client_reach _ (by decide +kernel), ?_⟩
  refine ⟨by decide +kernel, by decide +kernel, by decide +kernel, ?_⟩
  intro n
  have e : (step (client upC) (.request .fetch (some 0) (some .invalidHeader))).log =
      [.state .connected, .negotiated false true, .negotiated true true, .opened 0] := by decide +kernel
  rw [e]
  simp

/-- A server refuses the GOAWAY a client is allowed to send (RFC 9114, section 5.2). -/
theorem C92_not_client_goaway :
    ∃ (c : C), Reach true .server true true c ∧
      (step c (rd 2 (.frames [.goaway 0]))).st = .closing (.app 0x105) :=
  ⟨server upS, server_reach _ (by decide +kernel), by decide +kernel⟩

/-- A server that has sent a GOAWAY takes requests at and above the stream it named all the same. -/
theorem C92_not_server_limit :
    ∃ (c : C), Reach true .server true true c ∧ .sendGoaway 0 ∈ c.log ∧ get c.recv 4 = some .http ∧
      c.st = .connected :=
  ⟨server (upS ++ [.sendGoaway 0, .opened 4, rd 4 (.newStream .http)]),
    server_reach _ (by decide +kernel), by decide +kernel, by decide +kernel, by decide +kernel⟩

/-- A client's classic CONNECT: ending the sending side takes the receiving side away as well, so that
what the other end still sends is lost. -/
theorem C92_not_connect_halves :
    ∃ (c : C), Reach true .client true true c ∧ get c.recv 0 = some .connect ∧
      get (step c (.closeSending 0 true)).recv 0 = none ∧
      get (step c (rd 0 .ended)).send 0 = none :=
  ⟨client (upC ++ [.request .connect (some 0) none]), client_reach _ (by decide +kernel),
    by decide +kernel, by decide +kernel, by decide +kernel⟩

/-- A server stops at a panic if a client sends an extended CONNECT for a protocol other than the two
that are implemented; no feature need be enabled for that. -/
theorem C92_not_unknown_protocol :
    ∃ (c : C), Reach true .server false false c ∧ c.dead = false ∧
      (step c (rd 0 (.newStream .http) (.waiting false))).dead = true :=
  ⟨run (init .server false false) (upS ++ [.opened 0]), reach_run _ .init (by decide +kernel),
    by decide +kernel, by decide +kernel⟩

end Neqo.H3c
