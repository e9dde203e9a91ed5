import Verif.Life.Opening

/-! C89 and C90: findings and examples. -/
namespace Neqo.Life

open Conn

def env : Env := ⟨true, 100⟩
def calmTimers : Timers := ⟨false, none, false, false⟩
def writes : Writer := ⟨false, .ok true, true⟩
def silent : Writer := ⟨false, .ok false, false⟩

/-- The client starts. -/
def start : Op := .output env 0 calmTimers none none writes

/-- A genuine packet with these frames. -/
def packet (fs : List Fr) : Pkt := .normal false (.ok true) true (.opened fs none true)

/-- A datagram with one packet that arrives at a time. -/
def datagram (now : Nat) (fs : List Fr) : Op := .input env now now false [packet fs]

/-- The client has heard from the server, and its application is asked about the certificate. -/
def waiting : List Op := [start, datagram 10 [.plain]]

/-- The client is connected. -/
def up : List Op := waiting ++ [.authenticated env 20 (some (none, none)) none]

/-- The client is connected and the handshake is confirmed. -/
def confirmed : List Op := up ++ [datagram 30 [.plain, .done none]]

/-- The server is up: its handshake is complete with the last message of the client. -/
def serverUp : List Op :=
  [.input env 0 0 false [.normal true (.ok true) true (.opened [.plain] none true)],
   .output env 0 calmTimers none none writes,
   datagram 10 [.complete none none]]

def view (client : Bool) (ops : List Op) : Option (St × Sig × Nat × List Ev × List Out) :=
  match (Hist.new client).run ops with
  | .ok h => some (h.c.st, h.c.sig, h.c.streams, h.c.told, h.sent)
  | .error _ => none

def panics (client : Bool) (ops : List Op) : Bool :=
  match (Hist.new client).run ops with
  | .ok _ => false
  | .error _ => true

/-! ### Findings -/

/-- The peer closes while the application looks at the certificate.  When the application then says that the
certificate is fine, TLS completes and an assertion fails. -/
theorem C89_completion_panics :
    panics true (waiting ++ [datagram 15 [.close false 2]]) = false ∧
    panics true (waiting ++ [datagram 15 [.close false 2], .authenticated env 20 (some (none, none)) none]) = true := by
  decide +kernel

/-- The same if the application itself closes before it answers. -/
theorem C89_completion_after_own_close_panics :
    panics true (waiting ++ [.close env 15 7, .authenticated env 20 (some (none, none)) none]) = true := by
  decide +kernel

/-- CONNECTION_CLOSE and then the last message of the handshake in the same packet: the handshake completes on a
connection that drains, and an assertion fails.  A client can do that to any server. -/
theorem C89_completion_after_close_panics :
    panics false (serverUp.take 2 ++ [datagram 10 [.complete none none, .close false 2]]) = false ∧
    panics false (serverUp.take 2 ++ [datagram 10 [.close false 2, .complete none none]]) = true := by
  decide +kernel

/-- A stream frame after CONNECTION_CLOSE in the same packet opens a stream on the closed connection and the
application is told of it. -/
theorem C89_stream_after_close :
    (view true (confirmed ++ [datagram 40 [.close true 0, .stream]])).map (fun x => (x.1.isClosed, x.2.2.1, x.2.2.2.1.head?)) =
      some (true, 1, some .newStream) := by decide +kernel

/-- A connection that drains sends another CONNECTION_CLOSE if the application closes it. -/
theorem C89_close_while_draining_sends :
    let ops := confirmed ++ [datagram 40 [.close true 5], .output env 41 calmTimers none none writes, .close env 42 7,
      .output env 43 calmTimers none none writes]
    (view true ops).map (fun x => (x.1, x.2.2.2.2.take 4)) =
      some (.draining (.transport (peerApplication 5)) 340,
        [.close (.application 7), .none, .close (.transport (peerApplication 5)), .none]) := by
  decide +kernel

/-- A connection that is over, after an idle timeout, still sends a CONNECTION_CLOSE if the application closes it. -/
theorem C89_close_after_idle_sends :
    let ops := confirmed ++ [.output env 30000 ⟨true, none, false, false⟩ none none writes, .close env 30001 7,
      .output env 30002 calmTimers none none writes]
    (view true ops).map (fun x => (x.1, x.2.2.2.2.take 3)) =
      some (.closed (.transport idleTimeout), [.close (.application 7), .none, .none]) := by
  decide +kernel

/-- The application closes twice: the second reason replaces the first and the closing time starts again, if the
second code is larger; if it is smaller, the application is not told, but the peer is. -/
theorem C89_reason_replaced :
    (view true (confirmed ++ [.close env 40 1, .close env 200 2])).map (fun x => (x.1, x.2.1)) =
      some (.closing (.application 2) 500, .closing (.application 2)) ∧
    (view true (confirmed ++ [.close env 40 2, .close env 200 1])).map (fun x => (x.1, x.2.1)) =
      some (.closing (.application 2) 340, .closing (.application 1)) := by
  decide +kernel

/-- Each further call of `close` puts off the end. -/
theorem C89_close_puts_off_end :
    (view true (confirmed ++ [.close env 40 1, .close env 339 1, .output env 340 calmTimers none none silent])).map (·.1) =
      some (.closing (.application 1) 639) := by
  decide +kernel

/-- The idle timer replaces the reason, also while the connection drains. -/
theorem C89_idle_replaces_reason :
    (view true (confirmed ++ [datagram 40 [.close true 5], .output env 50 ⟨true, none, false, false⟩ none none silent])).map
      (·.1) = some (.closed (.transport idleTimeout)) := by
  decide +kernel

/-- The closing time of an error in a saved datagram is counted from when the datagram came: it can be over at
once. -/
theorem C89_short_closing_time :
    let op := Op.input env 30 400 false [packet [.bad protocolViolation]]
    (view true (up ++ [op])).map (·.1) = some (.closing (.transport protocolViolation) 330) ∧
    (view true (up ++ [op, .output env 400 calmTimers none none silent])).map (·.1) =
      some (.closed (.transport protocolViolation)) := by
  decide +kernel

/-- A packet from anyone, genuine or not, makes a closing connection send again. -/
theorem C89_any_packet_answered :
    let ops := confirmed ++ [.close env 40 1, .output env 41 calmTimers none none writes,
      .input env 42 42 false [.normal false (.ok false) false (.failed false false)],
      .output env 43 calmTimers none none writes]
    (view true ops).map (fun x => x.2.2.2.2.take 4) =
      some [.close (.application 1), .none, .close (.application 1), .none] := by
  decide +kernel

/-! ### Examples -/

/-- The states that are announced in turn (`C89_told`, `C89_forward`). -/
example : (view true (confirmed ++ [.close env 40 1, .output env 340 calmTimers none none silent])).map
    (fun x => x.2.2.2.1) = some [.state (.closed (.application 1)), .state (.closing (.application 1) 340),
      .state .confirmed, .state .connected, .state .handshaking, .state .waitInitial] := by decide +kernel

example : ∃ h, (Hist.new true).run confirmed = .ok h ∧ Reached h ∧ h.c.st = .confirmed ∧ h.c.sig ≠ .reset := by
  cases hr : (Hist.new true).run confirmed with
  | error p =>
    have : panics true confirmed = false := by decide +kernel
    simp [panics, hr] at this
  | ok h =>
    have : view true confirmed = some (.confirmed, .idle, 0,
        [.state .confirmed, .state .connected, .state .handshaking, .state .waitInitial],
        [.none, .none, .none, .data false]) := by decide +kernel
    simp only [view, hr, Option.some.injEq, Prod.mk.injEq] at this
    exact ⟨h, rfl, ⟨true, confirmed, hr⟩, this.1, by rw [this.2.1]; simp⟩

/-- A closed connection (`C89_stays_closed` and what follows). -/
example : (view true (confirmed ++ [.close env 40 1])).map (fun x => (x.1.isClosed, x.2.1)) =
    some (true, .closing (.application 1)) := by decide +kernel

/-- A connection that drains and answers once (`C89_draining_partial`). -/
example :
    let ops := confirmed ++ [datagram 40 [.close true 5], .output env 41 calmTimers none none writes, datagram 42 [.plain],
      .output env 43 calmTimers none none writes]
    (view true ops).map (fun x => (x.1.place, x.2.2.2.2.take 4)) =
      some (7, [.none, .none, .close (.transport (peerApplication 5)), .none]) := by decide +kernel

/-- A stateless reset, and the silence after it (`C89_reset`, `C89_reset_only`, `C89_reset_silent`). -/
example :
    let ops := confirmed ++ [.input env 40 40 true [.normal false (.ok false) false .pending],
      .output env 41 calmTimers none none writes, .close env 42 1, .output env 43 calmTimers none none writes]
    (view true ops).map (fun x => (x.1, x.2.1, x.2.2.2.2.take 4)) =
      some (.draining (.transport statelessReset) 340, .reset, [.none, .none, .none, .none]) := by decide +kernel

/-- A calm datagram (`C89_no_panic_partial`): the handshake completes and then the peer closes. -/
example (c : Conn) : Calm c (datagram 10 [.complete none none, .close true 0]) := by
  intro init first valid fs late hv h
  simp only [packet, List.mem_singleton, Pkt.normal.injEq, Body.opened.injEq] at h
  rw [h.2.2.2.1]
  simp [closes, completes]

/-- The server is up, and sends HANDSHAKE_DONE once and again when it is lost (`C90_completion`, `C90_done_sent`). -/
example :
    let ops := serverUp ++ [.output env 11 calmTimers none none writes, .output env 12 calmTimers none none writes, .doneLost,
      .output env 13 calmTimers none none writes]
    (view false ops).map (fun x => (x.1, x.2.2.2.2.take 4)) =
      some (.confirmed, [.data true, .none, .data false, .data true]) := by decide +kernel

/-- HANDSHAKE_DONE too early or for a server closes the connection (`C90_done_refused`). -/
example : (view true (waiting ++ [datagram 15 [.done none]])).map (·.1) =
      some (.closing (.transport protocolViolation) 315) ∧
    (view false (serverUp ++ [datagram 15 [.done none]])).map (·.1) =
      some (.closing (.transport protocolViolation) 315) := by decide +kernel

/-- The steps of a client that is connected and then confirmed (`C90_connected`, `C90_client_confirmed`,
`C90_done_accepted`). -/
example : (view true waiting).map (·.1) = some .handshaking ∧ (view true up).map (·.1) = some .connected ∧
    (view true confirmed).map (·.1) = some .confirmed := by decide +kernel

example : Completes (.authenticated env 20 (some (none, none)) none) ∧ Confirms (datagram 30 [.plain, .done none]) :=
  ⟨.inl ⟨_, _, _, _, rfl⟩, _, _, _, _, _, _, _, _, _, _, _, none, rfl, List.mem_singleton.mpr rfl, by simp⟩

/-- Streams of a client before the handshake is complete (`C90_create`). -/
example : (view true (waiting ++ [.create false true])).map (·.2.2.1) = some 0 ∧
    (view true (waiting ++ [.create true true])).map (·.2.2.1) = some 1 ∧
    (view true (up ++ [.create false true])).map (·.2.2.1) = some 1 := by decide +kernel

end Neqo.Life
