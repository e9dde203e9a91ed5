import Verif.Lib.Basic

/-!
# Model of the connections and handlers of `Http3Server` (neqo-http3/src/server.rs)

`Http3Server` keeps a handler for each connection of the transport's server, and passes what
the handlers report on to the application.  A connection is named by a number, which stands
for the address of the `Rc` (server.rs:661-672).  What the transport does with a
connection while it takes datagrams or looks for output is an input of the model, so it may
be anything; the order of those phases is that of the code.  What a handler does with a
transport event is reduced to: it reports something, or it fails.
-/
namespace Neqo.H3s

/-- `State` (connection/state.rs:21-45), as far as the server looks at it; `start` is everything
before `Connected`. -/
inductive TSt where
  | start | connected | closing | draining | closed
  deriving Repr, DecidableEq

/-- The order of states (connection/state.rs:19-45): that of the variants. -/
def TSt.rank : TSt → Nat
  | .start => 0
  | .connected => 1
  | .closing => 2
  | .draining => 3
  | .closed => 4

/-- `ConnectionEvent` (neqo-transport/src/events.rs:24-89): a change of state; one that the
handler reports as `n`; a priority update for stream `sid`; one that makes the handler fail. -/
inductive TEv where
  | state (s : TSt)
  | data (n : Nat)
  | prio (sid : Nat)
  | bad
  deriving Repr, DecidableEq

/-- What is used of a `Connection`: its state and its events. -/
structure Conn where
  st : TSt
  evs : List TEv
  deriving Repr, DecidableEq

/-- `ConnectionEvents::connection_state_change` (neqo-transport/src/events.rs:152-159). -/
def clears : TSt → Bool
  | .closing => true
  | .closed => true
  | _ => false

/-- `Connection::set_state` (connection/mod.rs:3782-3804).  A state with a reason or a timeout
is also taken again if those compare greater, which is `again`. -/
def Conn.setState (c : Conn) (s : TSt) (again : Bool) : Conn :=
  if c.st.rank < s.rank ∨ (c.st = s ∧ 2 ≤ s.rank ∧ again = true) then
    { st := s, evs := (if clears s then [] else c.evs) ++ [.state s] }
  else c

/-- `Http3State` (neqo-http3/src/connection.rs:91-98), without 0-RTT and `GOAWAY`. -/
inductive HSt where
  | init | connected | closing | closed
  deriving Repr, DecidableEq

/-- `Http3ServerConnEvent` (neqo-http3/src/server_connection_events.rs:21-51). -/
inductive HEv where
  | state (s : HSt)
  | data (n : Nat)
  | prio (sid : Nat)
  deriving Repr, DecidableEq

/-- `Http3ServerHandler` (connection_server.rs:27-31): the state, the events that have not been
taken, `needs_processing`, whether streams have data to send, the `GOAWAY` frames that wait in
the buffer of the control stream, and (a ghost) those that the transport took. -/
structure Hd where
  st : HSt
  out : List HEv
  needs : Bool
  pend : Bool
  buf : List Nat
  sent : List Nat
  deriving Repr, DecidableEq

/-- `Http3ServerHandler::new` (connection_server.rs:40-46). -/
def Hd.new : Hd := ⟨.init, [], false, false, [], []⟩

/-- `Http3Connection::handle_state_change` (connection.rs:598-645): the new state, if it
changes. -/
def HSt.change (h : HSt) : TSt → Option HSt
  | .start => none
  | .connected => some .connected
  | .closing | .draining => if h = .closing ∨ h = .closed then none else some .closing
  | .closed => if h = .closed then none else some .closed

/-- `Http3ServerHandler::close` (connection_server.rs:238-244), with `Connection::close`
(connection/mod.rs:3051-3064) for a connection that has a path. -/
def Hd.fail (h : Hd) (c : Conn) : Hd × Conn :=
  ({ h with st := .closed, out := h.out ++ [.state .closed], pend := false }, c.setState .closing false)

/-- What is reported for a change of state (connection_server.rs:271-280). -/
def Hd.changed (h : Hd) (s : TSt) : Hd :=
  match h.st.change s with
  | none => h
  | some t => { h with st := t, out := h.out ++ [.state t] }

/-- `Http3ServerHandler::check_connection_events` (connection_server.rs:247-299) and the
`check_result` after it (228-236); the result says whether the handler failed. -/
def Hd.loop : List TEv → Hd → Conn → (Hd × Conn) × Bool
  | [], h, c => ((h, { c with evs := [] }), false)
  | .bad :: es, h, c => (h.fail { c with evs := es }, true)
  | .data n :: es, h, c => Hd.loop es { h with out := h.out ++ [.data n] } c
  | .prio sid :: es, h, c => Hd.loop es { h with out := h.out ++ [.prio sid] } c
  | .state s :: es, h, c => Hd.loop es (h.changed s) c

/-- `Http3Connection::process_sending` (connection.rs:432-447): `ctl` says whether the
transport takes the buffer of the control stream, `more` whether streams keep data (407-428). -/
def Hd.sending (h : Hd) (ctl more : Bool) : Hd :=
  if h.st = .connected then
    { h with pend := h.pend && more,
             sent := if ctl then h.sent ++ h.buf else h.sent,
             buf := if ctl then [] else h.buf }
  else h

/-- `Http3ServerHandler::process_http3` (connection_server.rs:192-203). -/
def Hd.run (h : Hd) (c : Conn) (ctl more : Bool) : Hd × Conn :=
  if h.st = .closed then (h, c)
  else
    match Hd.loop c.evs h c with
    | (r, true) => r
    | ((h, c), false) => (h.sending ctl more, c)

/-- `Http3ServerHandler::should_be_processed` (connection_server.rs:218-224). -/
def Hd.due (h : Hd) : Bool := h.needs || h.pend || !h.out.isEmpty

/-- `Http3ServerHandler::queue_goaway` (connection_server.rs:211-215).  Before the control
stream exists the frame is not kept (buffered_send_stream.rs:44-50; a build with debug
assertions stops there). -/
def Hd.goaway (h : Hd) (id : Nat) : Hd :=
  { h with needs := true, buf := if h.st = .init then h.buf else h.buf ++ [id] }

/-- `Http3ServerEvent` (server_events.rs:248-283): all but priority updates carry their
connection. -/
inductive SEv where
  | of (k : Nat) (e : HEv)
  | prio (sid : Nat)
  deriving Repr, DecidableEq

/-- The event of the server for an event of the handler of connection `k`
(server.rs:198-333). -/
def tag (k : Nat) : HEv → SEv
  | .prio sid => .prio sid
  | e => .of k e

/-- `Http3Server` (server.rs:39-44) with the transport's connections: `known` are all that
were ever accepted (to go through the handlers), `live` those of the transport's server
(neqo-transport/src/server.rs:108), `got` (a ghost) the events to be reported that
connections queued. -/
structure World where
  known : List Nat
  live : List Nat
  conn : Nat → Conn
  hs : Nat → Option Hd
  evs : List SEv
  got : Nat → List Nat

/-- `Http3Server::new` (server.rs:57-81). -/
def World.new : World := ⟨[], [], fun _ => ⟨.start, []⟩, fun _ => none, [], fun _ => []⟩

/-- What the transport does with a connection. -/
inductive Act where
  | accept (k : Nat)
  | data (k n : Nat)
  | prio (k sid : Nat)
  | bad (k : Nat)
  | state (k : Nat) (s : TSt) (again : Bool)
  deriving Repr, DecidableEq

def upd {A : Type} (f : Nat → A) (k : Nat) (a : A) : Nat → A := fun j => if j = k then a else f j

/-- Whether the transport still does something with the streams of a connection
(`clear_streams`, connection/mod.rs:3787-3789). -/
def World.open (w : World) (k : Nat) : Bool := decide (k ∈ w.live) && decide ((w.conn k).st.rank ≤ 1)

def World.queue (w : World) (k : Nat) (e : TEv) : World :=
  { w with conn := upd w.conn k { w.conn k with evs := (w.conn k).evs ++ [e] } }

/-- One thing that the transport does: `accept_connection`
(neqo-transport/src/server.rs:353-399), an event of an open connection, or a change of state. -/
def World.act (w : World) : Act → World
  | .accept k => if k ∈ w.known then w else { w with known := w.known ++ [k], live := w.live ++ [k] }
  | .data k n => if w.open k then { w.queue k (.data n) with got := upd w.got k (w.got k ++ [n]) } else w
  | .prio k sid => if w.open k then w.queue k (.prio sid) else w
  | .bad k => if w.open k then w.queue k .bad else w
  | .state k s again =>
    if k ∈ w.live then { w with conn := upd w.conn k ((w.conn k).setState s again) } else w

def World.acts (w : World) (l : List Act) : World := l.foldl World.act w

/-- Whether a report is that the connection is closed. -/
def isClosed : HEv → Bool
  | .state .closed => true
  | _ => false

/-- `Http3Server::process_events` (server.rs:184-337). -/
def World.processEvents (ctl more : Nat → Bool) (w : World) (k : Nat) : World :=
  let r := ((w.hs k).getD Hd.new).run (w.conn k) (ctl k) (more k)
  { w with conn := upd w.conn k r.2,
           evs := w.evs ++ r.1.out.map (tag k),
           hs := upd w.hs k (if r.1.out.any isClosed then none else some { r.1 with out := [] }) }

/-- Whether `process_http3` looks at a connection (server.rs:158-170, with
`Server::active_connections`, neqo-transport/src/server.rs:624-630). -/
def World.active (w : World) (k : Nat) : Bool :=
  (decide (k ∈ w.live) && !(w.conn k).evs.isEmpty) ||
  match w.hs k with
  | some h => h.due
  | none => false

/-- `Http3Server::process_http3` (server.rs:156-178); the handlers' `needs_processing` is
cleared as they are asked. -/
def World.pass (w : World) (ctl more : Nat → Bool) : World :=
  (w.known.filter w.active).foldl (World.processEvents ctl more)
    { w with hs := fun k => (w.hs k).map fun h => { h with needs := false } }

/-- Closed connections leave the transport's server (neqo-transport/src/server.rs:611-614). -/
def World.retain (w : World) : World :=
  { w with live := w.live.filter fun k => decide ((w.conn k).st ≠ .closed) }

/-- What happens during `Http3Server::process_multiple`: what the transport does with the
datagrams, whether that gives something to send, what it does when it looks for output, and
whether that gives something to send. -/
structure Call where
  ins : List Act
  sent : Bool
  outs : List Act
  sent2 : Bool
  ctl : Nat → Bool
  more : Nat → Bool

/-- `Http3Server::process_multiple` (server.rs:134-153), with `Server::process_multiple`
(neqo-transport/src/server.rs:592-615). -/
def World.call (w : World) (i : Call) : World :=
  let w1 := (w.acts i.ins).pass i.ctl i.more
  if i.sent then w1
  else
    let w2 := w1.acts i.outs
    if i.sent2 then w2 else w2.retain

/-- What an application does: it calls the server, gives a handler something to send (which
`mark_needs_processing`, connection_server.rs:61-63, or pending data follow), or asks for
`GOAWAY` (`Http3Server::send_goaway`, server.rs:366-378). -/
inductive Op where
  | call (i : Call)
  | send (k : Nat)
  | goaway (id : Nat)

def World.step (w : World) : Op → World
  | .call i => w.call i
  | .send k => { w with hs := upd w.hs k ((w.hs k).map fun h => { h with needs := true, pend := true }) }
  | .goaway id => { w with hs := fun k => (w.hs k).map fun h => h.goaway id }

def World.run (w : World) (ops : List Op) : World := ops.foldl World.step w

end Neqo.H3s
