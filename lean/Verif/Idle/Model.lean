import Verif.Lib.Err

/-!
The idle timer, after neqo-transport/src/connection/idle.rs.

Times and durations are natural numbers (milliseconds).  `Instant` and `Duration` arithmetic does
not overflow.  The connection's part is `process_timer` and `set_initial_limits`
(neqo-transport/src/connection/mod.rs:1069-1076, 3066-3080).
-/

namespace Neqo.Idle

/-- `IdleTimeoutState` (idle.rs:19-23). -/
inductive St where
  | init
  | received (t : Nat)
  | sent (t : Nat)
  deriving DecidableEq, Repr

/-- `IdleTimeout` (idle.rs:30-34). -/
structure Idle where
  timeout : Nat
  state : St
  outstanding : Bool
  deriving DecidableEq, Repr

namespace Idle

/-- `IdleTimeout::new` (idle.rs:37-43). -/
def new (timeout : Nat) : Idle := { timeout, state := .init, outstanding := false }

/-- The peer's transport parameter (connection/mod.rs:3066-3077, idle.rs:44-46). -/
def setPeer (i : Idle) (peer : Nat) : Idle :=
  if peer > 0 then { i with timeout := min i.timeout peer } else i

/-- `start` (idle.rs:48-53). -/
def start (i : Idle) (now : Nat) : Nat :=
  match i.state with
  | .init => now
  | .received t | .sent t => t

/-- `expiry` (idle.rs:55-60). -/
def expiry (i : Idle) (now pto : Nat) : Nat := i.start now + max i.timeout (pto * 3)

/-- `on_packet_sent` (idle.rs:62-79). -/
def onSent (i : Idle) (now : Nat) : Idle :=
  match i.state with
  | .sent _ => i
  | .init | .received _ => { i with state := .sent now }

/-- `on_packet_received` (idle.rs:81-94). -/
def onReceived (i : Idle) (now : Nat) : Idle :=
  match i.state with
  | .init => { i with state := .received now }
  | .received t | .sent t => if t ≤ now then { i with state := .received now } else i

/-- `expired` (idle.rs:96-98). -/
def expired (i : Idle) (now pto : Nat) : Bool := i.expiry now pto ≤ now

/-- `keep_alive_timeout` (idle.rs:100-104). -/
def keepAliveTimeout (i : Idle) (now pto : Nat) : Nat := i.start now + max (i.timeout / 2) pto

/-- `next_keep_alive` (idle.rs:106-119). -/
def nextKeepAlive (i : Idle) (now pto : Nat) : Option Nat :=
  if i.outstanding then none
  else if i.keepAliveTimeout now pto ≤ now then none
  else some (i.keepAliveTimeout now pto)

/-- `send_keep_alive` (idle.rs:121-134). -/
def sendKeepAlive (i : Idle) (now pto : Nat) : Idle × Bool :=
  if i.outstanding = false ∧ i.keepAliveTimeout now pto ≤ now then
    ({ i with outstanding := true }, true)
  else (i, false)

/-- `lost_keep_alive` and `ack_keep_alive` (idle.rs:140-142). -/
def keepAliveDone (i : Idle) : Idle := { i with outstanding := false }

end Idle

end Neqo.Idle
