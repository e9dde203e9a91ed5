import Verif.Sched.Spec
import Verif.RecvStream.Spec

/-!
Model of the streams of a connection (neqo-transport/src/streams.rs) with the numbering of streams
(stream_id.rs), the limits on their number (fc.rs:590-731) and the table of receive streams
(recv_stream.rs:36-180).

Receive streams are those of `Verif.RecvStream.Model`, and the table of send streams is that of
`Verif.Sched.Model`.  What a single send stream does is left open (`Kind`).  An error in a received
frame closes the connection, so the state left behind by a failing call is not modelled.  Transport
parameters are those that matter here.  Events other than those about the numbering of streams, and
statistics, are left out.
-/

namespace Neqo.Strs

open Neqo.Flow (SFc RFc)
open Neqo.Sched (Writer Sched imFind)

/-- `Role` (neqo-common/src/lib.rs). -/
inductive Role where
  | client
  | server
deriving DecidableEq, Repr

/-- `StreamType` (stream_id.rs:18-21). -/
inductive SType where
  | bidi
  | uni
deriving DecidableEq, Repr

/-- The bits of a stream type (stream_id.rs:18-21). -/
def SType.code : SType → Nat
  | .bidi => 0
  | .uni => 2

/-- `role_bit` (stream_id.rs:116-121). -/
def Role.bit : Role → Nat
  | .client => 0
  | .server => 1

/-- `Role::remote` (neqo-common/src/lib.rs). -/
def Role.other : Role → Role
  | .client => .server
  | .server => .client

/-- `StreamId::init` (stream_id.rs:33-35). -/
def first (t : SType) (r : Role) : Nat := t.code + r.bit

/-- `is_bidi` (stream_id.rs:43-45): the second lowest bit is zero. -/
def isBidi (id : Nat) : Bool := decide (id / 2 % 2 = 0)

/-- `stream_type` (stream_id.rs:53-59). -/
def typeOf (id : Nat) : SType := if isBidi id then .bidi else .uni

/-- `is_client_initiated` (stream_id.rs:62-64): the lowest bit is zero. -/
def isClient (id : Nat) : Bool := decide (id % 2 = 0)

/-- `is_self_initiated` (stream_id.rs:81-87). -/
def isLocal (r : Role) (id : Nat) : Bool :=
  match r with
  | .client => isClient id
  | .server => !isClient id

/-- `is_remote_initiated` (stream_id.rs:90-92). -/
def isRemote (r : Role) (id : Nat) : Bool := !isLocal r id

/-- `is_send_only` (stream_id.rs:95-97). -/
def isSendOnly (r : Role) (id : Nat) : Bool := !isBidi id && isLocal r id

/-- `is_recv_only` (stream_id.rs:100-102). -/
def isRecvOnly (r : Role) (id : Nat) : Bool := !isBidi id && isRemote r id

/-- `index` (stream_id.rs:110-112). -/
def index (id : Nat) : Nat := id / 4

/-- `RemoteStreamLimit` (fc.rs:627-630). -/
structure Remote where
  fc : RFc
  next : Nat
deriving DecidableEq, Repr

/-- `RemoteStreamLimit::new` (fc.rs:633-639). -/
def Remote.new (t : SType) (max : Nat) (r : Role) : Remote := { fc := RFc.new max, next := first t r.other }

/-- `is_allowed` (fc.rs:641-644). -/
def Remote.isAllowed (r : Remote) (id : Nat) : Bool := r.fc.checkAllowed (id / 4)

/-- `is_new_stream` (fc.rs:646-651). -/
def Remote.isNew (r : Remote) (id : Nat) : Except Err Bool :=
  if r.isAllowed id then .ok (decide (r.next ≤ id)) else .error .streamLimit

/-- `RemoteStreamLimit::take_stream_id` (fc.rs:653-658). -/
def Remote.take (r : Remote) : Except Err (Remote × Nat) :=
  if r.isAllowed r.next then .ok ({ r with next := r.next + 4 }, r.next) else .error .panic

/-- `LocalStreamLimits::take_stream_id` (fc.rs:717-729). -/
def takeLocal (r : Role) (t : SType) (fc : SFc) : Except Err (SFc × Option Nat) :=
  if fc.available > 0 then
    match fc.consume 1 with
    | .error e => .error e
    | .ok fc' => .ok (fc', some (4 * fc.used + t.code + r.bit))
  else .ok (fc.blocked, none)

/-- Our transport parameters. -/
structure Cfg where
  maxData : Nat
  maxBidi : Nat
  maxUni : Nat
  bidiLocal : Nat
  bidiRemote : Nat
  uni : Nat
  resetAt : Bool := false
deriving DecidableEq, Repr

/-- The peer's transport parameters: remembered from an earlier connection, or those of this one. -/
structure Peer where
  maxData : Nat
  maxBidi : Nat
  maxUni : Nat
  bidiLocal : Nat
  bidiRemote : Nat
  uni : Nat
deriving DecidableEq, Repr

/-- What a send stream does: `SendStream::new` (send_stream.rs:744-770) with its ID and limit,
`drop_commitment` and `reset` for STOP_SENDING (streams.rs:193-198), and `set_max_stream_data`
(send_stream.rs:1424-1432). -/
structure Kind (σ γ : Type) where
  w : Writer σ γ
  new : Nat → Nat → σ
  stop : Nat → σ → σ
  setMax : Nat → σ → σ

/-- `Streams` (streams.rs:84-94) and `RecvStreams` (recv_stream.rs:37-42).  The peer's transport
parameters are unknown at first (tparams.rs:756-761). -/
structure State (σ : Type) where
  role : Role
  cfg : Cfg
  peer : Option Peer := none
  conn : SFc := { limit := 0 }
  ses : RFc
  rb : Remote
  ru : Remote
  lb : SFc := { limit := 0 }
  lu : SFc := { limit := 0 }
  send : Sched σ := {}
  recv : SMap RecvS.State := []
  recvEnded : Bool := false

variable {σ γ : Type}

/-- `Streams::new` (streams.rs:97-116). -/
def State.new (role : Role) (cfg : Cfg) : State σ :=
  { role, cfg, ses := RFc.new cfg.maxData, rb := .new .bidi cfg.maxBidi role, ru := .new .uni cfg.maxUni role }

/-- The limit on streams of the peer (fc.rs:688-700). -/
def State.remote (s : State σ) : SType → Remote
  | .bidi => s.rb
  | .uni => s.ru

/-- Replace it (fc.rs:688-700). -/
def State.setRemote (s : State σ) (r : Remote) : SType → State σ
  | .bidi => { s with rb := r }
  | .uni => { s with ru := r }

/-- The limit on own streams (fc.rs:734-750). -/
def State.loc (s : State σ) : SType → SFc
  | .bidi => s.lb
  | .uni => s.lu

/-- Replace it (fc.rs:734-750). -/
def State.setLoc (s : State σ) (l : SFc) : SType → State σ
  | .bidi => { s with lb := l }
  | .uni => { s with lu := l }

/-- What the peer and the application see. -/
inductive Out where
  /-- `stream_create` returned an ID. -/
  | created (t : SType) (id : Nat)
  /-- `stream_create` failed. -/
  | refused (t : SType)
  /-- The application is told of a stream of the peer. -/
  | opened (id : Nat)
  /-- The application is told that it may create streams. -/
  | creatable (t : SType)
  /-- MAX_DATA was sent. -/
  | maxData (m : Nat)
  /-- MAX_STREAMS was sent. -/
  | maxStreams (t : SType) (m : Nat)
  /-- STREAMS_BLOCKED was sent. -/
  | blocked (t : SType) (l : Nat)
deriving DecidableEq, Repr

/-- The streams for one ID (streams.rs:437-472). -/
def openOne (K : Kind σ γ) (s : State σ) (id : Nat) : Except Err (State σ) :=
  let s := { s with recv := SMap.insert s.recv id (.new (if isBidi id then s.cfg.bidiRemote else s.cfg.uni)) }
  if isBidi id then
    match s.peer with
    | none => .error .panic
    | some p => .ok { s with send := s.send.insert id (K.new id p.bidiLocal) }
  else .ok s

/-- The loop of `ensure_created_if_remote` (streams.rs:437-473), with a bound on the rounds that is
large enough (`openUpTo_spec` in `Verif.Streams.Open`). -/
def openUpTo (K : Kind σ γ) (id : Nat) : Nat → State σ → Except Err (State σ × List Out)
  | 0, s => .ok (s, [])
  | n + 1, s =>
    match (s.remote (typeOf id)).isNew id with
    | .error e => .error e
    | .ok false => .ok (s, [])
    | .ok true =>
      match (s.remote (typeOf id)).take with
      | .error e => .error e
      | .ok (r, nid) =>
        match openOne K (s.setRemote r (typeOf id)) nid with
        | .error e => .error e
        | .ok s =>
          match openUpTo K id n s with
          | .error e => .error e
          | .ok (s, os) => .ok (s, .opened nid :: os)

/-- `ensure_created_if_remote` (streams.rs:417-474). -/
def ensureCreated (K : Kind σ γ) (s : State σ) (id : Nat) : Except Err (State σ × List Out) :=
  if !isRemote s.role id then .ok (s, [])
  else openUpTo K id ((id - (s.remote (typeOf id)).next) / 4 + 2) s

/-- `obtain_stream` (streams.rs:481-501). -/
def obtainStream (K : Kind σ γ) (s : State σ) (id : Nat) : Except Err (State σ × List Out) :=
  match ensureCreated K s id with
  | .error e => .error e
  | .ok (s, os) =>
    if (imFind s.send.map id).isNone && (SMap.find s.recv id).isNone && !isRemote s.role id &&
        decide ((s.loc (typeOf id)).used ≤ index id) then .error .streamState
    else .ok (s, os)

/-- An operation on a receive stream, and whether the code notes that it ended the stream: reads
(recv_stream.rs:110-118), `stop_sending` (recv_stream.rs:124-128), resets (recv_stream.rs:135-147) and
acknowledgments (recv_stream.rs:150-155).  A read that fails because there is no more data changes
nothing. -/
def recvStep (st : RecvS.State) (ses : RFc) : RecvS.Op → Except Err (RecvS.State × RFc × Bool)
  | .frame fin off d =>
    match st.inboundFrame ses fin off d with
    | .error e => .error e
    | .ok (st, ses, _) => .ok (st, ses, false)
  | .reset err fs rel =>
    match st.reset ses err fs rel with
    | .error e => .error e
    | .ok (st, ses, ended, _) => .ok (st, ses, ended)
  | .read n =>
    match st.read ses n with
    | .ok (st, ses, _, _, _) => .ok (st, ses, st.isEnded)
    | .error .noMoreData => .ok (st, ses, false)
    | .error e => .error e
  | .stopSending err =>
    match st.stopSending ses err with
    | .error e => .error e
    | .ok (st, ses, ended, _) => .ok (st, ses, ended)
  | .stopSendingAcked => .ok (st.stopSendingAcked.1, ses, st.stopSendingAcked.2)
  | .stopSendingLost => .ok (st.stopSendingLost, ses, false)
  | .write fits now rtt =>
    match st.writeFrame fits now rtt with
    | .error e => .error e
    | .ok (st, _) => .ok (st, ses, false)
  | .maxStreamDataLost l => .ok (st.maxStreamDataLost l, ses, false)
  | .peerBlocked => .ok (st.sendFlowcUpdate, ses, false)
  | .setWindow w => .ok (st.setStreamMaxData w, ses, false)

/-- An operation on one of the receive streams (recv_stream.rs:71-73, 102-155).  Nothing happens if there is none
with this ID. -/
def State.onRecv (s : State σ) (id : Nat) (op : RecvS.Op) : Except Err (State σ) :=
  match SMap.find s.recv id with
  | none => .ok s
  | some st =>
    match recvStep st s.ses op with
    | .error e => .error e
    | .ok (st, ses, ended) =>
      .ok { s with recv := SMap.modify s.recv id (fun _ => st), ses, recvEnded := s.recvEnded || ended }

/-- The frames about streams. -/
inductive Frame where
  | resetStream (id err final : Nat)
  | resetStreamAt (id err final reliable : Nat)
  | stopSending (id err : Nat)
  | stream (fin : Bool) (id off : Nat) (data : Codec.Bytes)
  | maxData (m : Nat)
  | maxStreamData (id m : Nat)
  | maxStreams (t : SType) (m : Nat)
  | dataBlocked
  | streamDataBlocked (id : Nat)
  | streamsBlocked
deriving DecidableEq, Repr

/-- A frame for the receiving part of a stream (streams.rs:149-156, 170-180, 214-220, 259-265). -/
def frameRecv (K : Kind σ γ) (s : State σ) (id : Nat) (op : RecvS.Op) : Except Err (State σ × List Out) :=
  if isSendOnly s.role id then .error .streamState
  else
    match obtainStream K s id with
    | .error e => .error e
    | .ok (s, os) =>
      match s.onRecv id op with
      | .error e => .error e
      | .ok s => .ok (s, os)

/-- A frame for the sending part of a stream (streams.rs:188-198, 235-240). -/
def frameSend (K : Kind σ γ) (s : State σ) (id : Nat) (f : σ → σ) : Except Err (State σ × List Out) :=
  if isRecvOnly s.role id then .error .streamState
  else
    match obtainStream K s id with
    | .error e => .error e
    | .ok (s, os) => .ok ({ s with send := s.send.touch id f }, os)

/-- `input_frame` (streams.rs:139-274), with `handle_max_data` (streams.rs:567-576),
`handle_data_blocked` (streams.rs:578-580) and `handle_max_streams` (streams.rs:611-618). -/
def inputFrame (K : Kind σ γ) (s : State σ) : Frame → Except Err (State σ × List Out)
  | .resetStream id err final => frameRecv K s id (.reset err final 0)
  | .resetStreamAt id err final rel =>
    if !s.cfg.resetAt then .error .protocolViolation else frameRecv K s id (.reset err final rel)
  | .stopSending id err => frameSend K s id (K.stop err)
  | .stream fin id off d => frameRecv K s id (.frame fin off d)
  | .maxData m => .ok ({ s with conn := (s.conn.update m).1 }, [])
  | .maxStreamData id m => frameSend K s id (K.setMax m)
  | .maxStreams t m =>
    .ok (s.setLoc ((s.loc t).update m).1 t, if ((s.loc t).update m).2.isSome then [.creatable t] else [])
  | .dataBlocked => .ok ({ s with ses := s.ses.sendFlowcUpdate }, [])
  | .streamDataBlocked id => frameRecv K s id .peerBlocked
  | .streamsBlocked => .ok (s, [])

/-- `stream_create` (streams.rs:523-565). -/
def create (K : Kind σ γ) (s : State σ) (t : SType) : Except Err (State σ × List Out) :=
  match takeLocal s.role t (s.loc t) with
  | .error e => .error e
  | .ok (l, none) => .ok (s.setLoc l t, [.refused t])
  | .ok (l, some id) =>
    match s.peer with
    | none => .error .panic
    | some p =>
      let s := s.setLoc l t
      match t with
      | .uni => .ok ({ s with send := s.send.insert id (K.new id p.uni) }, [.created .uni id])
      | .bidi =>
        .ok ({ s with send := s.send.insert id (K.new id p.bidiRemote),
                      recv := SMap.insert s.recv id (.new s.cfg.bidiLocal) }, [.created .bidi id])

/-- A receive stream is done with (recv_stream.rs:167). -/
def dead (send : Sched σ) (e : Nat × RecvS.State) : Bool :=
  e.2.isEnded && (!isBidi e.1 || (imFind send.map e.1).isNone)

/-- The limit on streams of the peer after `n` of them were removed (streams.rs:413-414). -/
def Remote.retire (r : Remote) (n : Nat) : Remote := { r with fc := r.fc.addRetiredStreams n }

/-- `cleanup_closed_streams` (streams.rs:404-415) with `RecvStreams::remove_ended`
(recv_stream.rs:157-179). -/
def cleanup (K : Kind σ γ) (s : State σ) : Except Err (State σ) :=
  match s.send.removeEnded K.w with
  | .error _ => .error .panic
  | .ok (send, removed) =>
    if !(s.recvEnded || removed) then .ok { s with send }
    else
      let gone := s.recv.filter (fun e => dead send e && isRemote s.role e.1)
      .ok { s with
        send
        recv := s.recv.filter (fun e => !dead send e)
        recvEnded := false
        rb := s.rb.retire (gone.filter (fun e => isBidi e.1)).length
        ru := s.ru.retire (gone.filter (fun e => !isBidi e.1)).length }

/-- `update_initial_limit` (send_stream.rs:2388-2398). -/
def updateInitialLimit (K : Kind σ γ) (send : Sched σ) (p : Peer) : Except Err (Sched σ) :=
  if send.map.any (fun e => isBidi e.1 && isRemote .client e.1) then .error .panic
  else .ok (send.update (fun id st => K.setMax (if isBidi id then p.bidiRemote else p.uni) st))

/-- `set_initial_limits` (streams.rs:582-609). -/
def setInitialLimits (K : Kind σ γ) (s : State σ) (p : Peer) : Except Err (State σ × List Out) :=
  match (if s.role = .client then updateInitialLimit K s.send p else .ok s.send) with
  | .error e => .error e
  | .ok send =>
    let lb := (s.lb.update p.maxBidi).1
    let lu := (s.lu.update p.maxUni).1
    .ok ({ s with peer := some p, lb, lu, send, conn := (s.conn.update p.maxData).1 },
      (if lb.available > 0 then [.creatable .bidi] else []) ++ if lu.available > 0 then [.creatable .uni] else [])

/-- `zero_rtt_rejected` (streams.rs:123-134) with `clear_streams` (streams.rs:384-387).  Its assertions
hold (`C37_limits_kept`). -/
def zeroRttRejected (s : State σ) : State σ :=
  { s with send := s.send.clear, recv := [], recvEnded := false, lb := { limit := 0 }, lu := { limit := 0 } }

/-- What happens to the streams of a connection. -/
inductive Op (σ γ : Type) where
  | frame (f : Frame)
  | create (t : SType)
  /-- Anything else about a receive stream: reading, abandoning it, writing its frames, acknowledgments
  and losses (streams.rs:326-381). -/
  | recv (id : Nat) (op : RecvS.Op)
  /-- Anything else about send streams: settings, writing, sending, acknowledgments and losses. -/
  | send (op : Sched.Op σ γ)
  /-- Send streams use connection flow control (send_stream.rs:1507). -/
  | spend (n : Nat)
  /-- MAX_DATA may be written (streams.rs:293-299). -/
  | writeMaxData (fits : Bool) (now rtt : Nat)
  | maxDataLost (m : Nat)
  /-- MAX_STREAMS may be written (streams.rs:303-310). -/
  | writeMaxStreams (t : SType) (fits : Bool)
  | maxStreamsLost (t : SType) (m : Nat)
  /-- STREAMS_BLOCKED may be written (streams.rs:312-318). -/
  | writeBlocked (t : SType) (fits : Bool)
  | blockedLost (t : SType) (l : Nat)
  | cleanup
  /-- The peer's transport parameters are known (connection/mod.rs:840, 3138, 3327). -/
  | limits (p : Peer)
  /-- The server rejected 0-RTT (connection/mod.rs:3704-3713). -/
  | rejected

/-- One step. -/
def exec (K : Kind σ γ) (s : State σ) : Op σ γ → Except Err (State σ × List Out)
  | .frame f => inputFrame K s f
  | .create t => create K s t
  | .recv id op => (s.onRecv id op).map (·, [])
  | .send op =>
    match s.send.exec K.w op with
    | .error .panic => .error .panic
    | .error _ => .ok (s, [])
    | .ok send => .ok ({ s with send }, [])
  | .spend n => (s.conn.consume n).map (fun conn => ({ s with conn }, []))
  | .writeMaxData fits now rtt =>
    (s.ses.write fits now rtt Flow.maxLocalMaxData).map (fun r => ({ s with ses := r.1 }, r.2.toList.map .maxData))
  | .maxDataLost m => .ok ({ s with ses := s.ses.frameLost m }, [])
  | .writeMaxStreams t fits =>
    let r := (s.remote t).fc.writeStreams fits
    .ok (s.setRemote { s.remote t with fc := r.1 } t, r.2.toList.map (.maxStreams t))
  | .maxStreamsLost t m => .ok (s.setRemote { s.remote t with fc := (s.remote t).fc.frameLost m } t, [])
  | .writeBlocked t fits =>
    let r := (s.loc t).write fits
    .ok (s.setLoc r.1 t, r.2.toList.map (.blocked t))
  | .blockedLost t l => .ok (s.setLoc ((s.loc t).frameLost l) t, [])
  | .cleanup => (cleanup K s).map (·, [])
  | .limits p => setInitialLimits K s p
  | .rejected => .ok (zeroRttRejected s, [])

end Neqo.Strs
