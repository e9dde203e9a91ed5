import Verif.Recovery.PropsTimer
import Verif.Idle.Model
import Verif.Keys.Model
import Verif.Path.Props
import Verif.Life.Model

/-!
# The timers of a connection

`process_timer` and `next_delay` of neqo-transport/src/connection/mod.rs, put together from the models of the parts that
have timers.  Times are natural numbers of one unit, nanoseconds as in `Verif.Recovery`.  What the closing states do is in `Verif.Life`.  There is a primary path.  Left out: releasing a resumption token and the timer of
path MTU discovery, which are never waited for, and the limit on consecutive probe timeouts, which closes the connection
(`Verif.Life` has both).
-/
namespace Neqo.Timer

/-- The parts of a connection that have timers. -/
structure Parts where
  idle : Idle.Idle
  /-- `need_keep_alive`. -/
  keepAlive : Bool
  keys : Keys.K
  loss : Rec.Hist
  paths : Path.Conn
  /-- What `ack_time` returns (tracking.rs:562-587). -/
  ack : Option Nat
  /-- When the pacer lets the next packet go, if output was held back for it. -/
  pace : Option Nat

/-- `Paths::next_timeout` (path.rs:277-282). -/
def pathTimes (c : Path.Conn) (pto : Nat) : List Nat := c.paths.filterMap fun i => (c.heap i).nextTimeout pto

/-- The times that `next_delay` looks at (connection/mod.rs:1181-1226), in the order of the code.  `pto` is the probe
timeout of the primary path and `possible` its `pto_possible`. -/
def Parts.times (p : Parts) (now pto : Nat) (possible : Bool) : Except Err (List Nat) :=
  match p.loss.s.nextTimeout possible with
  | .error e => .error e
  | .ok lr =>
    .ok (p.ack.toList ++ [p.idle.expiry now pto] ++ (if p.keepAlive then (p.idle.nextKeepAlive now pto).toList else []) ++ lr.toList ++ p.pace.toList ++
      (pathTimes p.paths pto).min?.toList ++ p.keys.updTime.toList)

/-- The part of `process_timer` (connection/mod.rs:1048-1128) that handles the timers, if the connection does not close.
`pto` is the probe timeout of the primary path. -/
def Parts.process (p : Parts) (now pto : Nat) (hsKeys : Bool) : Option Parts :=
  if p.idle.expired now pto then none
  else
    match p.keys.checkKeyUpdate now with
    | .error _ => none
    | .ok k =>
      match p.loss.step (.timeout now hsKeys) with
      | .error _ => none
      | .ok (r, _) =>
        match p.paths.processTimeout now pto with
        | .error _ => none
        | .ok c => some { p with keys := k, loss := r, paths := c }

end Neqo.Timer
