/-!
Network paths, their validation and the connection IDs they use, after neqo-transport/src/path.rs,
neqo-transport/src/cid.rs (`ConnectionIdStore`) and the parts of neqo-transport/src/connection/mod.rs
that drive them.

Addresses, challenge data, reset tokens, times and durations are natural numbers; a connection ID
is a list of bytes.  A `PathRef` (`Rc<RefCell<Path>>`) is a number that names an object in a heap.
Not modelled: RTT estimation, congestion control, path MTU discovery, SCONE, logging and
statistics, and the details of ECN validation (see `Ecn`).  Debug assertions are modelled as panics.
-/

namespace Neqo.Path

/-- What can go wrong. -/
inductive Err where
  | panic
  | protocolViolation
  | connectionIdLimitExceeded
  | invalidMigration
  | noAvailablePath
  deriving DecidableEq, Repr

/-- `ConnectionIdEntry<Srt>` (cid.rs:243-253). -/
structure Entry where
  seq : Nat
  cid : List Nat
  srt : Nat
  deriving DecidableEq, Repr

/-- `SEQNO_EMPTY` (cid.rs:469). -/
def seqEmpty : Nat := 2 ^ 64 - 2

namespace Entry

/-- `any_part_equal` (cid.rs:279-281). -/
def anyPartEqual (a b : Entry) : Bool := a.seq = b.seq || a.cid = b.cid || a.srt = b.srt

/-- `is_empty` (cid.rs:310-312). -/
def isEmpty (e : Entry) : Bool := e.seq = seqEmpty || e.cid = []

/-- `empty_remote` (cid.rs:264-270); the token is never matched. -/
def empty : Entry := { seq := seqEmpty, cid := [], srt := 0 }

end Entry

/-- `Vec::insert` at the place found by `binary_search_by_key`. -/
def insertSeq (e : Entry) : List Entry → List Entry
  | [] => [e]
  | a :: l => if e.seq < a.seq then e :: a :: l else a :: insertSeq e l

/-- `add_remote` (cid.rs:384-402).  The last check never fails, as the sequence numbers were
compared already. -/
def addRemote (store : List Entry) (e : Entry) : Except Err (List Entry) :=
  if store.any (fun c => c = e) then .ok store
  else if store.any (fun c => c.anyPartEqual e) then .error .protocolViolation
  else .ok (insertSeq e store)

/-- What `retire_prior_to` keeps (cid.rs:405-416). -/
def keepFrom (rp : Nat) (store : List Entry) : List Entry :=
  store.filter (fun e => !(!e.isEmpty && e.seq < rp))

/-- What `retire_prior_to` returns (cid.rs:405-416). -/
def retiredFrom (rp : Nat) (store : List Entry) : List Nat :=
  (store.filter (fun e => !e.isEmpty && e.seq < rp)).map (·.seq)

/-- `ProbeState` (path.rs:492-510). -/
inductive PSt where
  | valid
  | needed (count : Nat)
  | probing (count data : Nat) (mtu : Bool) (sent : Nat)
  | failed
  deriving DecidableEq, Repr

/-- The states of ECN validation (ecn.rs:27-45), without the counters that drive it. -/
inductive Ecn where
  | notStarted
  | testing
  | unknown
  | failed
  | capable
  deriving DecidableEq, Repr

/-- `is_marking` (ecn.rs:339-346). -/
def Ecn.marking : Ecn → Bool
  | .testing | .capable => true
  | _ => false

/-- `start` (ecn.rs:173-186). -/
def Ecn.start : Ecn → Ecn
  | .notStarted => .testing
  | e => e

/-- The steps ECN validation takes as packets are sent, acknowledged and lost
(ecn.rs:207-337): the test ends, succeeds or fails. -/
def Ecn.next (a b : Ecn) : Bool :=
  match a, b with
  | .testing, .unknown | .testing, .failed | .unknown, .capable | .unknown, .failed
  | .capable, .failed => true
  | _, _ => false

/-- `Path` (path.rs:529-567). -/
structure Path where
  loc : Nat
  rem : Nat
  cid : Option Entry
  primary : Bool
  st : PSt
  validated : Option Nat
  challenge : Option Nat
  received : Nat
  sent : Nat
  mtu : Nat
  ecn : Ecn
  deriving DecidableEq, Repr

namespace Path

/-- `MAX_PROBES` (path.rs:574). -/
def maxProbes : Nat := 3

/-- `temporary` (path.rs:578-626). -/
def temporary (loc rem mtu : Nat) : Path :=
  { loc, rem, cid := none, primary := false, st := .needed 0, validated := none, challenge := none,
    received := 0, sent := 0, mtu, ecn := .notStarted }

/-- `set_valid` (path.rs:682-686). -/
def setValid (p : Path) (now : Nat) : Path := { p with st := .valid, validated := some now }

/-- `update` (path.rs:710-714). -/
def update (p : Path) (now : Nat) : Path :=
  if p.validated.isSome then { p with validated := some now } else p

/-- `is_valid` (path.rs:794-796). -/
def isValid (p : Path) : Bool := p.validated.isSome

/-- How many probes were sent when the next one is wanted (path.rs:827-831). -/
def probeCount : PSt → Nat
  | .probing n _ _ _ => n + 1
  | .needed n => n
  | _ => 0

/-- `probe` (path.rs:825-846). -/
def probe (p : Path) : Path :=
  if maxProbes ≤ probeCount p.st then
    if p.ecn.marking then { p with ecn := .failed, st := .needed 0 }
    else { p with st := .failed }
  else { p with st := .needed (probeCount p.st) }

/-- `path_response` (path.rs:799-815). -/
def pathResponse (p : Path) (data now : Nat) : Path × Bool :=
  match p.st with
  | .probing _ d full _ =>
    if data = d then
      (if full then p.setValid now else (p.setValid now).probe, true)
    else (p, false)
  | _ => (p, false)

/-- `has_probe` (path.rs:849-851). -/
def hasProbe (p : Path) : Bool :=
  p.challenge.isSome ||
    match p.st with
    | .needed _ => true
    | _ => false

/-- `write_frames` (path.rs:853-905), there being room for `room` bytes.  Returns the data of the
PATH_RESPONSE and of the PATH_CHALLENGE written. -/
def writeFrames (p : Path) (room data : Nat) (full : Bool) (now : Nat) :
    Path × Option Nat × Option Nat :=
  if room < 9 then (p, none, none)
  else
    let resp := p.challenge
    let p := { p with challenge := none }
    let room := if resp.isSome then room - 9 else room
    if resp.isSome ∧ room < 9 then (p, resp, none)
    else
      match p.st with
      | .needed n => ({ p with st := .probing n data full now }, resp, some data)
      | _ => (p, resp, none)

/-- The first part of `process_timeout` (path.rs:945-950): a probe that was not answered in time
is repeated. -/
def reprobe (p : Path) (now pto : Nat) : Path :=
  match p.st with
  | .probing _ _ _ sent => if sent + pto ≤ now then p.probe else p
  | _ => p

/-- The rest of `process_timeout` (path.rs:939-962): whether the path is kept. -/
def viable (p : Path) (now pto : Nat) : Bool :=
  match p.st with
  | .failed => false
  | .valid =>
    p.primary ||
      match p.validated with
      | some t => t + pto * (2 * maxProbes + 1) > now
      | none => false
  | _ => true

/-- `next_timeout` (path.rs:968-974). -/
def nextTimeout (p : Path) (pto : Nat) : Option Nat :=
  match p.st with
  | .probing _ _ _ sent => some (sent + pto)
  | _ => none

/-- `amplification_limit` (path.rs:1135-1155); `none` is no limit. -/
def amplificationLimit (p : Path) : Option Nat :=
  match p.st with
  | .failed => some 0
  | _ =>
    if p.isValid then none
    else if p.received * 3 = 0 then some (p.mtu * 5 - p.sent)
    else some (p.received * 3 - p.sent)

/-- What `retire` adds to the queue (path.rs:121-130). -/
def retired (p : Path) : List Nat :=
  match p.cid with
  | some e => if e.cid = [] then [] else [e.seq]
  | none => []

end Path

/-- `MAX_PATHS` (path.rs:38). -/
def maxPaths : Nat := 15

/-- `ACTIVE_LIMIT` (cid.rs:458). -/
def activeLimit : Nat := 8

/-- `MAX_RETIRE_QUEUE` (cid.rs:463). -/
def maxRetireQueue : Nat := 2 * activeLimit

/-- `Paths` (path.rs:49-69), the heap of paths, and the connection's store of connection IDs, role
and state. -/
structure Conn where
  heap : Nat → Path
  next : Nat
  paths : List Nat
  primary : Option Nat
  target : Option Nat
  toRetire : List Nat
  store : List Entry
  client : Bool
  connected : Bool

/-- Change one object. -/
def upd (h : Nat → Path) (i : Nat) (p : Path) : Nat → Path := fun j => if j = i then p else h j

/-- `slice::swap(0, idx)` of a list that holds `i` at `idx`. -/
def swapFront (i : Nat) : List Nat → List Nat
  | [] => []
  | a :: l => if a = i then a :: l else i :: l.map (fun x => if x = i then a else x)

namespace Conn

/-- A new connection (path.rs:72-81). -/
def init (client : Bool) : Conn :=
  { heap := fun _ => Path.temporary 0 0 0, next := 0, paths := [], primary := none, target := none,
    toRetire := [], store := [], client, connected := false }

/-- Change one path. -/
def modify (c : Conn) (i : Nat) (f : Path → Path) : Conn :=
  { c with heap := upd c.heap i (f (c.heap i)) }

/-- `find_path` (path.rs:86-108): a path in use, or a new temporary one. -/
def findPath (c : Conn) (loc rem mtu : Nat) : Conn × Nat :=
  match c.paths.find? (fun i => (c.heap i).loc = loc && (c.heap i).rem = rem) with
  | some i => (c, i)
  | none =>
    ({ c with heap := upd c.heap c.next (.temporary loc rem mtu), next := c.next + 1 }, c.next)

/-- `is_temporary` (path.rs:116-119). -/
def isTemporary (c : Conn) (i : Nat) : Bool := (c.heap i).cid.isNone || !(c.paths.contains i)

/-- `set_primary(false)` on the old primary path (path.rs:682-690). -/
def clearOld (c : Conn) : Except Err Conn :=
  match c.primary with
  | none => .ok c
  | some o =>
    if (c.heap o).cid.isNone then .error .panic
    else .ok (c.modify o (fun p => { p with primary := false }))

/-- `select_primary` (path.rs:175-191). -/
def selectPrimary (c : Conn) (i : Nat) : Except Err Conn := do
  let c ← c.clearOld
  let c := { c with primary := some i }
  if c.paths.contains i then
    let c := { c with paths := swapFront i c.paths }
    if (c.heap i).cid.isNone then .error .panic
    else .ok (c.modify i (fun p => { p with primary := true }))
  else .ok c

/-- The eviction in `make_permanent` (path.rs:144-163). -/
def evict (c : Conn) : Except Err Conn :=
  if maxPaths ≤ c.paths.length then
    if c.paths.length ≠ maxPaths then .error .panic
    else
      match c.paths with
      | a :: b :: l =>
        .ok { c with paths := a :: l, toRetire := c.toRetire ++ (c.heap b).retired,
                     target := if c.target = some b then none else c.target }
      | _ => .error .panic
  else .ok c

/-- `make_permanent` (path.rs:134-169, 663-670).  The local connection ID is not modelled. -/
def makePermanent (c : Conn) (i : Nat) (e : Entry) : Except Err Conn := do
  if ¬ c.isTemporary i then .error .panic
  else
    let c ← c.evict
    let c := c.modify i (fun p => { p with cid := some e })
    let c := { c with paths := c.paths ++ [i] }
    match c.primary with
    | none => c.selectPrimary i
    | some _ => .ok c

/-- `ensure_permanent` (connection/mod.rs:2052-2085). -/
def ensurePermanent (c : Conn) (i : Nat) : Except Err Conn :=
  if c.isTemporary i then
    match c.store with
    | e :: rest => { c with store := rest }.makePermanent i e
    | [] =>
      match c.primary with
      | some p =>
        match (c.heap p).cid with
        | none => c.makePermanent i .empty
        | some e => if e.cid = [] then c.makePermanent i .empty else .error .invalidMigration
      | none => .error .invalidMigration
  else .ok c

/-- `setup_handshake_path` (connection/mod.rs:2031-2049). -/
def setupHandshakePath (c : Conn) (i : Nat) (cid : List Nat) (srt now : Nat) : Except Err Conn := do
  let c ← c.makePermanent i { seq := 0, cid, srt }
  if c.client then .ok (c.modify i (fun p => p.setValid now)) else .ok c

/-- The choice in `Paths::migrate` (path.rs:198-221). -/
def retarget (c : Conn) (i : Nat) (force : Bool) (now : Nat) : Except Err Conn :=
  if force || (c.heap i).isValid then do
    let c ← (c.modify i (fun p => p.setValid now)).selectPrimary i
    .ok { c with target := none }
  else .ok { c with target := some i }

/-- `Paths::migrate` (path.rs:198-221). -/
def migratePath (c : Conn) (i : Nat) (force : Bool) (now : Nat) : Except Err Conn :=
  if c.isTemporary i then .error .panic
  else do
    let c ← (c.modify i (fun p => { p with ecn := p.ecn.start })).retarget i force now
    .ok (c.modify i (fun p => p.probe))

/-- `Connection::migrate` (connection/mod.rs:2135-2197), the checks on the state, the transport
parameter and the addresses having passed. -/
def migrate (c : Conn) (loc rem mtu : Nat) (force : Bool) (now : Nat) : Except Err Conn := do
  if ¬ c.client ∨ ¬ c.connected ∨ c.primary = none then .error .invalidMigration
  else
    let (c, i) := c.findPath loc rem mtu
    let c ← c.ensurePermanent i
    c.migratePath i force now

/-- `Paths::process_timeout` (path.rs:228-274).  `retain` visits each path once and a path's
processing does not depend on the others, so it is written as one pass that updates and one that
filters. -/
def processTimeout (c : Conn) (now pto : Nat) : Except Err Conn :=
  let h := fun i => if c.paths.contains i then (c.heap i).reprobe now pto else c.heap i
  let gone := c.paths.filter (fun i => !(h i).viable now pto)
  let c := { c with heap := h, paths := c.paths.filter (fun i => (h i).viable now pto),
                    toRetire := c.toRetire ++ gone.flatMap (fun i => (h i).retired) }
  if gone.any (fun i => (h i).primary) then
    let c := { c with primary := none }
    match c.paths.reverse.find? (fun i => (c.heap i).isValid) with
    | some f => c.selectPrimary f
    | none => .error .noAvailablePath
  else .ok c

/-- `Paths::handle_migration` (path.rs:287-315). -/
def handleMigrationPath (c : Conn) (i now : Nat) : Except Err Conn := do
  if (c.heap i).primary then .ok (c.modify i (fun p => p.update now))
  else
    let old := c.primary
    let c ← c.selectPrimary i
    match old with
    | some o => if c.paths.contains i then .ok (c.modify o (fun p => p.probe)) else .ok c
    | none => .ok c

/-- `handle_migration` (connection/mod.rs:2254-2281), on a packet that is not only probing and has
the largest number so far. -/
def handleMigration (c : Conn) (i now : Nat) : Except Err Conn :=
  if c.client then .ok c
  else
    match c.ensurePermanent i with
    | .ok c => c.handleMigrationPath i now
    | .error .panic => .error .panic
    | .error _ => .ok c

/-- `select_path` (path.rs:319-324). -/
def selectPath (c : Conn) : Option Nat :=
  match c.paths.find? (fun i => (c.heap i).hasProbe) with
  | some i => some i
  | none => c.primary

/-- `Paths::path_response` (path.rs:330-356): the first path that takes the response. -/
def pathResponse (c : Conn) (data now : Nat) : Except Err Conn :=
  match c.paths.find? (fun i => ((c.heap i).pathResponse data now).2) with
  | none => .ok c
  | some i =>
    let c := c.modify i (fun p => (p.pathResponse data now).1)
    if c.target = some i then { c with target := none }.selectPrimary i else .ok c

/-- What `retire_cids` works on. -/
structure Retiring where
  heap : Nat → Path
  store : List Entry
  toRetire : List Nat
  target : Option Nat

/-- The `retain` in `retire_cids` (path.rs:362-398). -/
def retireGo (rp : Nat) : List Nat → Retiring → Except Err (List Nat × Retiring)
  | [], r => .ok ([], r)
  | i :: l, r =>
    match (r.heap i).cid with
    | none => do
      let (k, r) ← retireGo rp l r
      .ok (i :: k, r)
    | some e =>
      if e.seq < rp ∧ e.cid ≠ [] then
        match r.store with
        | n :: rest => do
          let (k, r) ← retireGo rp l
            { r with heap := upd r.heap i { r.heap i with cid := some n }, store := rest,
                     toRetire := r.toRetire ++ [e.seq] }
          .ok (i :: k, r)
        | [] =>
          if (r.heap i).primary then .error .panic
          else
            retireGo rp l
              { r with heap := upd r.heap i { r.heap i with cid := none },
                       toRetire := r.toRetire ++ [e.seq],
                       target := if r.target = some i then none else r.target }
      else do
        let (k, r) ← retireGo rp l r
        .ok (i :: k, r)

/-- `retire_cids` (path.rs:362-398). -/
def retireCids (c : Conn) (rp : Nat) : Except Err Conn := do
  let (k, r) ← retireGo rp c.paths
    { heap := c.heap, store := keepFrom rp c.store, toRetire := c.toRetire ++ retiredFrom rp c.store,
      target := c.target }
  .ok { c with heap := r.heap, paths := k, store := r.store, toRetire := r.toRetire,
               target := r.target }

/-- A NEW_CONNECTION_ID frame (connection/mod.rs:3455-3482). -/
def newConnectionId (c : Conn) (e : Entry) (rp : Nat) : Except Err Conn := do
  let store ← addRemote c.store e
  let c ← { c with store }.retireCids rp
  if activeLimit ≤ c.store.length then .error .connectionIdLimitExceeded
  else if maxRetireQueue < c.toRetire.length then .error .connectionIdLimitExceeded
  else .ok c

/-- A PATH_CHALLENGE frame (connection/mod.rs:3487-3499). -/
def pathChallenge (c : Conn) (i data : Nat) : Except Err Conn := do
  let c ← c.ensurePermanent i
  .ok (c.modify i (fun p => { p with challenge := some data }))

end Conn

end Neqo.Path
