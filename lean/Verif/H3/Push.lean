import Verif.H3.Reader

/-! # Pushes at a client (neqo-http3/src/push_controller.rs) -/
namespace Neqo.H3

/-- The events of `Http3ClientEvent` that are about pushes (client_events.rs:96-115).
`H` are lists of fields. -/
inductive PEv (H : Type) where
  | promise (id ref : Nat) (h : H)
  | header (id : Nat) (h : H) (interim fin : Bool)
  | readable (id : Nat)
  | canceled (id : Nat)
  | reset (id : Nat)
  deriving Repr, DecidableEq

variable {H : Type}

def PEv.id : PEv H → Nat
  | .promise id _ _ | .header id _ _ _ | .readable id | .canceled id | .reset id => id

/-- `enum PushState` (push_controller.rs:36-50). -/
inductive PState (H : Type) where
  | init
  | promise (h : H)
  | only (sid : Nat) (events : List (PEv H))
  | active (sid : Nat) (h : H)
  | closed
  deriving Repr, DecidableEq

/-- `struct ActivePushStreams` (push_controller.rs:58-62). -/
structure Act (H : Type) where
  first : Nat
  states : List (PState H)
  deriving Repr, DecidableEq

/-- The part of `ActivePushStreams::get_mut` that makes room (push_controller.rs:82-85). -/
def Act.grow (a : Act H) (id : Nat) : Act H :=
  { a with states := a.states ++ List.replicate (id - a.first + 1 - a.states.length) .init }

/-- `ActivePushStreams::get_mut` (push_controller.rs:74-90) and `get`
(push_controller.rs:93-95). -/
def Act.get (a : Act H) (id : Nat) : Act H × Option (PState H) :=
  if id < a.first then (a, none)
  else
    let a1 := a.grow id
    match a1.states[id - a.first]? with
    | some .closed => (a1, none)
    | e => (a1, e)

/-- Write through the reference that `get_mut` returned. -/
def Act.set (a : Act H) (id : Nat) (s : PState H) : Act H :=
  { a with states := a.states.set (id - a.first) s }

/-- The loop in `ActivePushStreams::close` (push_controller.rs:98-110). -/
def Act.popClosed : List (PState H) → Nat → Act H
  | .closed :: l, first => Act.popClosed l (first + 1)
  | l, first => ⟨first, l⟩

/-- `ActivePushStreams::close` (push_controller.rs:98-110). -/
def Act.close (a : Act H) (id : Nat) : Act H × Option (PState H) :=
  match a.get id with
  | (a1, none) => (a1, none)
  | (a1, some s) =>
    let a2 := a1.set id .closed
    (Act.popClosed a2.states a2.first, some s)

def PState.isClosed : PState H → Bool
  | .closed => true
  | _ => false

/-- `ActivePushStreams::number_done` (push_controller.rs:113-121). -/
def Act.numberDone (a : Act H) : Nat := a.first + (a.states.filter PState.isClosed).length

/-- Frames that are put on the control stream. -/
inductive PFrame where
  | maxPushId (id : Nat)
  | cancelPush (id : Nat)
  deriving Repr, DecidableEq

/-- `struct PushController` (push_controller.rs:148-158), with the event queue, the
frames sent, the push streams that exist in `Http3Connection` (transport stream and push
ID), and the stream IDs that have been used.  `seen` are the events the application
has taken, `reports` what the push streams had to report (both only for stating
properties).  `debug` says whether `debug_assert!` is compiled in. -/
structure Push (H : Type) where
  debug : Bool
  maxConcurrent : Nat
  maxId : Nat
  act : Act H
  queue : List (PEv H)
  frames : List PFrame
  live : List (Nat × Nat)
  used : List Nat
  stopped : List Nat
  seen : List (PEv H)
  reports : List (PEv H)
  deriving Repr, DecidableEq

/-- `PushController::new` (push_controller.rs:167-175). -/
def Push.new (debug : Bool) (maxConcurrent : Nat) : Push H :=
  { debug, maxConcurrent, maxId := 0, act := ⟨0, []⟩, queue := [], frames := [], live := [], used := [],
    stopped := [], seen := [], reports := [] }

/-- What a call results in.
* `ok`, `refused`: the push stream is, or is not, wanted.
* `failed`: an error for the caller only.
* `closes`: the connection is closed with an error.
* `panic`: a `debug_assert!` fails, or a subtraction overflows. -/
inductive PRes where
  | ok | refused | failed
  | closes (e : Err)
  | panic
  deriving Repr, DecidableEq

/-- `Http3ClientEvents::insert` (client_events.rs:363-365). -/
def Push.insert (p : Push H) (e : PEv H) : Push H := { p with queue := p.queue ++ [e] }

/-- `Http3ClientEvents::remove_events_for_push_id` (client_events.rs:432-440), which
leaves `PushReset` in the queue. -/
def Push.removeEvents (p : Push H) (id : Nat) : Push H :=
  { p with queue := p.queue.filter fun e => match e with | .reset _ => true | e => e.id ≠ id }

/-- `Http3Connection::stream_stop_sending` (connection.rs:1067-1083), which removes the
stream. -/
def Push.stopSending (p : Push H) (sid : Nat) : Push H :=
  { p with live := p.live.filter fun x => x.1 ≠ sid, stopped := p.stopped ++ [sid] }

/-- `PushController::new_push_promise` (push_controller.rs:182-234) with `check_push_id`
(push_controller.rs:271-279). -/
def Push.newPushPromise [DecidableEq H] (p : Push H) (id ref : Nat) (h : H) : Push H × PRes :=
  if id > p.maxId then (p, .closes .httpId)
  else
    match p.act.get id with
    | (a, none) => ({ p with act := a }, .ok)
    | (a, some .init) => ({ p with act := a.set id (.promise h) }.insert (.promise id ref h), .ok)
    | (a, some (.promise h0)) =>
      if h ≠ h0 then ({ p with act := a }, .closes .httpGeneralProtocol)
      else ({ p with act := a }.insert (.promise id ref h), .ok)
    | (a, some (.active _ h0)) =>
      if h ≠ h0 then ({ p with act := a }, .closes .httpGeneralProtocol)
      else ({ p with act := a }.insert (.promise id ref h), .ok)
    | (a, some (.only sid events)) =>
      ({ p with act := a.set id (.active sid h), queue := p.queue ++ [.promise id ref h] ++ events }, .ok)
    | (_, some .closed) => (p, .panic)

/-- `PushController::add_new_push_stream` (push_controller.rs:236-269). -/
def Push.addNewPushStream (p : Push H) (id sid : Nat) : Push H × PRes :=
  if id > p.maxId then (p, .closes .httpId)
  else
    match p.act.get id with
    | (a, none) => ({ p with act := a }, .refused)
    | (a, some .init) => ({ p with act := a.set id (.only sid []) }, .ok)
    | (a, some (.promise h)) => ({ p with act := a.set id (.active sid h) }, .ok)
    | (a, some _) => ({ p with act := a }, .closes .httpId)

/-- `Http3Client::handle_new_push_stream` (connection_client.rs:1051-1100), up to the
first reading of the stream.  What it reports comes with the other operations. -/
def Push.newStream (p : Push H) (id sid : Nat) : Push H × PRes :=
  if p.maxConcurrent = 0 then (p, .closes .httpId)
  else
    match p.addNewPushStream id sid with
    | (p1, .refused) => ({ p1 with stopped := p1.stopped ++ [sid] }, .refused)
    | (p1, .ok) => ({ p1 with live := (sid, id) :: p1.live }, .ok)
    | r => r

/-- `PushController::handle_cancel_push` (push_controller.rs:281-317);
`Http3ClientEvents::push_canceled` is at client_events.rs:320-323. -/
def Push.handleCancelPush (p : Push H) (id : Nat) : Push H × PRes :=
  if id > p.maxId then (p, .closes .httpId)
  else
    match p.act.close id with
    | (a, none) => ({ p with act := a }, .ok)
    | (a, some .init) => ({ p with act := a }, .ok)
    | (a, some (.promise _)) => (({ p with act := a }.removeEvents id).insert (.canceled id), .ok)
    | (a, some (.only sid _)) | (a, some (.active sid _)) =>
      ((({ p with act := a }.stopSending sid).removeEvents id).insert (.canceled id), .ok)
    | (_, some .closed) => (p, .panic)

/-- `PushController::close` (push_controller.rs:319-326). -/
def Push.close (p : Push H) (id : Nat) : Push H × PRes :=
  match p.act.close id with
  | (a, some (.active _ _)) => ({ p with act := a }, .ok)
  | (a, _) => ({ p with act := a }, if p.debug then .panic else .ok)

/-- `Http3ClientEvents::has_push` (client_events.rs:423-430): whether a promise is in
the queue. -/
def Push.hasPush (p : Push H) (id : Nat) : Bool :=
  p.queue.any fun e => match e with | .promise i _ _ => i = id | _ => false

/-- `PushController::cancel` (push_controller.rs:328-370). -/
def Push.cancel (p : Push H) (id : Nat) : Push H × PRes :=
  if id > p.maxId then (p, .failed)
  else
    match p.act.get id with
    | (a, none) =>
      if p.hasPush id then ({ p with act := a }.removeEvents id, .ok) else ({ p with act := a }, .failed)
    | (a, some (.promise _)) =>
      let p1 := { p with act := (a.close id).1 }.removeEvents id
      ({ p1 with frames := p1.frames ++ [.cancelPush id] }, .ok)
    | (a, some (.active sid _)) =>
      (({ p with act := (a.close id).1 }.removeEvents id).stopSending sid, .ok)
    | (a, some _) => ({ p with act := a }, .failed)

/-- `PushController::push_stream_reset` (push_controller.rs:372-396). -/
def Push.streamReset (p : Push H) (id : Nat) (localError : Bool) : Push H × PRes :=
  match p.act.get id with
  | (a, none) => ({ p with act := a }, .ok)
  | (a, some (.only _ _)) => ({ p with act := (a.close id).1 }, .ok)
  | (a, some (.active _ _)) =>
    (({ p with act := (a.close id).1 }.removeEvents id).insert
      (if localError then .reset id else .canceled id), .ok)
  | (a, some _) => ({ p with act := a }, if p.debug then .panic else .ok)

/-- `PushController::get_active_stream_id` (push_controller.rs:398-403). -/
def Push.activeStreamId (p : Push H) (id : Nat) : Push H × Option Nat :=
  match p.act.get id with
  | (a, some (.active sid _)) => ({ p with act := a }, some sid)
  | (a, _) => ({ p with act := a }, none)

/-- `PushController::maybe_send_max_push_id_frame` (push_controller.rs:405-418). -/
def Push.sendMax (p : Push H) : Push H × PRes :=
  let done := p.act.numberDone
  if p.maxConcurrent = 0 then (p, .ok)
  else if p.maxId + 1 < done then (p, .panic)
  else if p.maxId + 1 - done ≤ p.maxConcurrent / 2 then
    ({ p with maxId := done + p.maxConcurrent - 1,
              frames := p.frames ++ [.maxPushId (done + p.maxConcurrent - 1)] }, .ok)
  else (p, .ok)

/-- `PushController::new_stream_event` (push_controller.rs:432-447). -/
def Push.streamEvent (p : Push H) (id : Nat) (e : PEv H) : Push H × PRes :=
  match p.act.get id with
  | (a, some (.only sid events)) => ({ p with act := a.set id (.only sid (events ++ [e])) }, .ok)
  | (a, some (.active _ _)) => ({ p with act := a }.insert e, .ok)
  | (a, _) => ({ p with act := a }, if p.debug then .panic else .ok)

/-- What happens.
* `promise`: a `PUSH_PROMISE` frame came on the request stream `ref`.
* `newStream`: the head of a push stream was read.
* `headers`, `data`: a push stream reports a header section or data
  (push_controller.rs:471-478, 493-509).
* `done`: the message on a push stream is finished (push_controller.rs:487).
* `reset`: it was reset, by the peer or because of an error (push_controller.rs:483-486).
* `cancelPush`: a `CANCEL_PUSH` frame came.
* `appCancel`: `Http3Client::cancel_push` (connection_client.rs:711-715).
* `appRead`: `Http3Client::push_read_data` looks up the stream
  (connection_client.rs:724-737).
* `pop`: the application takes an event.
* `sendMax`: after input has been processed (connection_client.rs:793-806).
* `requestClosed`: the request stream is closed before its events were taken
  (`remove_recv_stream_events`, client_events.rs:398-413); `headers` says whether
  events with fields are kept. -/
inductive POp (H : Type) where
  | promise (id ref : Nat) (h : H)
  | newStream (id sid : Nat)
  | headers (sid : Nat) (h : H) (interim fin : Bool)
  | data (sid : Nat)
  | done (sid : Nat)
  | reset (sid : Nat) (localError : Bool)
  | cancelPush (id : Nat)
  | appCancel (id : Nat)
  | appRead (id : Nat)
  | pop
  | sendMax
  | requestClosed (ref : Nat) (headers : Bool)
  deriving Repr, DecidableEq

/-- The push ID of a stream that exists. -/
def Push.idOf (p : Push H) (sid : Nat) : Option Nat := (p.live.find? fun x => x.1 = sid).map Prod.snd

/-- One operation.  Streams that do not exist report nothing, and the transport uses a
stream ID once. -/
def Push.step [DecidableEq H] (p : Push H) : POp H → Push H × PRes
  | .promise id ref h => p.newPushPromise id ref h
  | .newStream id sid =>
    if sid ∈ p.used then (p, .ok) else { p with used := sid :: p.used }.newStream id sid
  | .headers sid h interim fin =>
    match p.idOf sid with
    | none => (p, .ok)
    | some id =>
      let e := PEv.header id h interim fin
      { p with reports := p.reports ++ [e] }.streamEvent id e
  | .data sid =>
    match p.idOf sid with
    | none => (p, .ok)
    | some id =>
      let e := PEv.readable id
      { p with reports := p.reports ++ [e] }.streamEvent id e
  | .done sid =>
    match p.idOf sid with
    | none => (p, .ok)
    | some id => { p with live := p.live.filter fun x => x.1 ≠ sid }.close id
  | .reset sid le =>
    match p.idOf sid with
    | none => (p, .ok)
    | some id => { p with live := p.live.filter fun x => x.1 ≠ sid }.streamReset id le
  | .cancelPush id => p.handleCancelPush id
  | .appCancel id => p.cancel id
  | .appRead id => ((p.activeStreamId id).1, .ok)
  | .pop =>
    match p.queue with
    | [] => (p, .ok)
    | e :: q => ({ p with queue := q, seen := p.seen ++ [e] }, .ok)
  | .sendMax => p.sendMax
  | .requestClosed ref headers =>
    if headers then (p, .ok)
    else ({ p with queue := p.queue.filter fun e => match e with | .promise _ r _ => r ≠ ref | _ => true }, .ok)

/-- A history, which ends when the connection is closed or the program panics. -/
def Push.run [DecidableEq H] : Push H → List (POp H) → Push H × PRes
  | p, [] => (p, .ok)
  | p, op :: ops =>
    match p.step op with
    | (p1, .closes e) => (p1, .closes e)
    | (p1, .panic) => (p1, .panic)
    | (p1, _) => p1.run ops

end Neqo.H3
