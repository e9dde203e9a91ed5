import Verif.Lib.SMap

/-!
Model of the scheduling of send streams (neqo-transport/src/send_stream.rs, `OrderGroup`,
`PerGroupQueues` and `SendStreams`).

What one stream writes is left open: a `Writer` says what `SendStream::write_frames` does to a
stream, and to the room left in the packet.  The theorems hold for every writer that obeys the few
laws stated in `Spec`, and the stream of `Verif.SendStream` is one.

Send orders are `i64` in the code and natural numbers here: only their order matters.  The calls to
`write_frames` are recorded in `log`, which the code does not have.
-/

namespace Neqo.Sched

/-- The ways an operation can fail. -/
inductive Err where
  | panic
  | invalidStreamId
  | invalidInput
deriving DecidableEq, Repr

/-- `OrderGroup` (send_stream.rs:1745-1760). -/
structure Og where
  vec : List Nat := []
  next : Nat := 0
deriving DecidableEq, Repr

/-- `OrderGroupIter` (send_stream.rs:1762-1770). -/
structure It where
  g : Og
  started : Option Nat
deriving DecidableEq, Repr

/-- `OrderGroup::iter` (send_stream.rs:1773-1782). -/
def Og.iter (g : Og) : It :=
  { g := if g.vec.length ≤ g.next then { g with next := 0 } else g, started := none }

/-- `OrderGroupIter::next` (send_stream.rs:1831-1840) with `update_next` (send_stream.rs:1802-1806).
The index is in range (`It.ok_get` in `Verif.Sched.Iter`). -/
def It.step (i : It) : It × Option Nat :=
  if i.started = some i.g.next ∨ i.g.vec = [] then (i, none)
  else ({ g := { i.g with next := (i.g.next + 1) % i.g.vec.length },
          started := some (i.started.getD i.g.next) }, some (i.g.vec.getD i.g.next 0))

/-- Put an ID in its place in a sorted vector. -/
def sortedInsert (l : List Nat) (id : Nat) : List Nat :=
  l.filter (fun x => decide (x < id)) ++ id :: l.filter (fun x => decide (id < x))

/-- `OrderGroup::insert` (send_stream.rs:1810-1816): the vector is sorted, so the binary search finds
the place before the first larger ID. -/
def Og.insert (g : Og) (id : Nat) : Except Err Og :=
  if id ∈ g.vec then .error .panic
  else .ok { g with vec := sortedInsert g.vec id }

/-- `OrderGroup::remove` (send_stream.rs:1820-1826). -/
def Og.remove (g : Og) (id : Nat) : Except Err Og :=
  if id ∈ g.vec then .ok { g with vec := g.vec.filter (fun x => decide (x ≠ id)) }
  else .error .panic

/-- `OrderGroup::push` (send_stream.rs:1793-1795). -/
def Og.push (g : Og) (id : Nat) : Og := { g with vec := g.vec ++ [id] }

/-- `PerGroupQueues` (send_stream.rs:1849-1852). -/
structure Queues where
  ordered : SMap Og := []
  regular : Og := {}
deriving DecidableEq, Repr

/-- The bucket of an order, which is new if there is none (send_stream.rs:1855-1861). -/
def Queues.bucket (q : Queues) : Option Nat → Og
  | some o => (SMap.find q.ordered o).getD {}
  | none => q.regular

/-- Replace a bucket (send_stream.rs:1855-1861). -/
def Queues.setBucket (q : Queues) (g : Og) : Option Nat → Queues
  | some o => { q with ordered := SMap.insert q.ordered o g }
  | none => { q with regular := g }

/-- `PerGroupQueues::remove_stream` (send_stream.rs:1863-1874). -/
def Queues.removeStream (q : Queues) (id : Nat) : Option Nat → Except Err Queues
  | some o =>
    match SMap.find q.ordered o with
    | none => .ok q
    | some g =>
      match g.remove id with
      | .error e => .error e
      | .ok g =>
        if g.vec = [] then .ok { q with ordered := SMap.erase q.ordered o }
        else .ok { q with ordered := SMap.insert q.ordered o g }
  | none =>
    match q.regular.remove id with
    | .error e => .error e
    | .ok g => .ok { q with regular := g }

/-- `PerGroupQueues::is_empty` (send_stream.rs:1876-1880). -/
def Queues.isEmpty (q : Queues) : Bool := decide (q.regular.vec = [] ∧ q.ordered = [])

/-- What scheduling knows of a stream, and the stream itself. -/
structure Strm (σ : Type) where
  fair : Bool := false
  order : Option Nat := none
  group : Option Nat := none
  st : σ
deriving DecidableEq, Repr

/-- What `SendStream::write_frames` did (send_stream.rs:813-831). -/
structure Wrote (σ γ : Type) where
  st : σ
  /-- What all streams share. -/
  sh : γ
  /-- The room left. -/
  rem : Nat
  /-- A STREAM frame was written. -/
  wrote : Bool
  /-- The value returned. -/
  more : Bool

/-- What streams do. -/
structure Writer (σ γ : Type) where
  /-- `has_data_at` (send_stream.rs:777-808). -/
  has : σ → Bool
  /-- `write_frames` (send_stream.rs:813-831). -/
  write : γ → σ → Nat → Wrote σ γ
  /-- `is_ended` (send_stream.rs:1435-1440). -/
  ended : σ → Bool

/-- A call to `write_frames` of a stream. -/
structure Offer where
  id : Nat
  room : Nat
  wrote : Bool
  more : Bool
deriving DecidableEq, Repr

/-- `SendStreams` (send_stream.rs:1884-1919).  Both maps are `IndexMap`s: they keep the order of
insertion. -/
structure Sched (σ : Type) where
  map : List (Nat × Strm σ) := []
  hasEnded : Bool := false
  groups : List (Nat × Queues) := []
  groupNext : Nat := 0
  rrNext : Nat := 0
deriving DecidableEq, Repr

variable {σ γ : Type}

/-- Look up in an `IndexMap`. -/
def imFind {α : Type} (m : List (Nat × α)) (k : Nat) : Option α :=
  (m.find? (fun e => e.1 == k)).map (·.2)

/-- Change a value of an `IndexMap`. -/
def imSet {α : Type} (m : List (Nat × α)) (k : Nat) (v : α) : List (Nat × α) :=
  m.map (fun e => if e.1 = k then (e.1, v) else e)

/-- Insert in an `IndexMap`: a known key keeps its place. -/
def imInsert {α : Type} (m : List (Nat × α)) (k : Nat) (v : α) : List (Nat × α) :=
  if (imFind m k).isSome then imSet m k v else m ++ [(k, v)]

/-- `shift_remove` of an `IndexMap`. -/
def imErase {α : Type} (m : List (Nat × α)) (k : Nat) : List (Nat × α) :=
  m.filter (fun e => decide (e.1 ≠ k))

/-- `NULL_GROUP_ID` (send_stream.rs:1924). -/
def nullGroup : Nat := 0

/-- `SendStreams::insert` (send_stream.rs:1950-1952). -/
def Sched.insert (s : Sched σ) (id : Nat) (st : σ) : Sched σ :=
  { s with map := imInsert s.map id { st } }

/-- `insert_into_group` (send_stream.rs:1956-1967). -/
def Sched.insertIntoGroup (s : Sched σ) (gid id : Nat) (order : Option Nat) : Except Err (Sched σ) :=
  let q := (imFind s.groups gid).getD {}
  match (q.bucket order).insert id with
  | .error e => .error e
  | .ok g => .ok { s with groups := imInsert s.groups gid (q.setBucket g order) }

/-- Keep a cursor in range (send_stream.rs:1981-1983). -/
def clamp (next len : Nat) : Nat := if len ≤ next then 0 else next

/-- `remove_from_group` (send_stream.rs:1971-1986). -/
def Sched.removeFromGroup (s : Sched σ) (gid id : Nat) (order : Option Nat) : Except Err (Sched σ) :=
  match imFind s.groups gid with
  | none => .ok s
  | some q =>
    match q.removeStream id order with
    | .error e => .error e
    | .ok q =>
      if q.isEmpty then
        let groups := imErase s.groups gid
        .ok { s with groups, groupNext := clamp s.groupNext groups.length }
      else .ok { s with groups := imSet s.groups gid q }

/-- Where a stream is queued: its group, or the null group if it is fair (send_stream.rs:2025, 2036). -/
def home (fair : Bool) (group : Option Nat) : Option Nat :=
  group.or (if fair then some nullGroup else none)

/-- Remove from where the stream is queued, if it is (send_stream.rs:2025-2027). -/
def Sched.leave (s : Sched σ) (h : Option Nat) (id : Nat) (order : Option Nat) : Except Err (Sched σ) :=
  match h with
  | some gid => s.removeFromGroup gid id order
  | none => .ok s

/-- Queue a stream (send_stream.rs:2036-2038). -/
def Sched.enter (s : Sched σ) (h : Option Nat) (id : Nat) (order : Option Nat) : Except Err (Sched σ) :=
  match h with
  | some gid => s.insertIntoGroup gid id order
  | none => .ok s

/-- `set_sendgroup` (send_stream.rs:1997-2040). -/
def Sched.setSendGroup (s : Sched σ) (id : Nat) (group : Option Nat) : Except Err (Sched σ) :=
  match imFind s.map id with
  | none => .error .invalidStreamId
  | some x =>
    if group = some nullGroup then .error .invalidInput
    else if x.group = group then .ok s
    else if group.isSome && !x.fair then .error .invalidInput
    else
      match s.leave (home x.fair x.group) id x.order with
      | .error e => .error e
      | .ok s =>
        ({ s with map := imSet s.map id { x with group } } : Sched σ).enter (home x.fair group) id x.order

/-- A newly fair stream is appended if its ID is the largest, and else inserted
(send_stream.rs:2095-2101). -/
def Og.add (g : Og) (id : Nat) : Except Err Og :=
  match g.vec.getLast? with
  | some last => if last < id then .ok (g.push id) else g.insert id
  | none => g.insert id

/-- Queue a newly fair stream (send_stream.rs:2095-2101). -/
def Sched.addFair (s : Sched σ) (id : Nat) (order : Option Nat) : Except Err (Sched σ) :=
  let q := (imFind s.groups nullGroup).getD {}
  match (q.bucket order).add id with
  | .error e => .error e
  | .ok g => .ok { s with groups := imInsert s.groups nullGroup (q.setBucket g order) }

/-- `set_fairness` (send_stream.rs:2077-2117). -/
def Sched.setFairness (s : Sched σ) (id : Nat) (fair : Bool) : Except Err (Sched σ) :=
  match imFind s.map id with
  | none => .error .invalidStreamId
  | some x =>
    let s := { s with map := imSet s.map id { x with fair } }
    if !x.fair && fair then
      if x.group = none then s.addFair id x.order else .ok s
    else if x.fair && !fair then
      match s.removeFromGroup (x.group.getD nullGroup) id x.order with
      | .error e => .error e
      | .ok s => .ok { s with map := imSet s.map id { x with fair, group := none } }
    else .ok s

/-- Move a stream to another bucket of its group, which may be empty for a moment
(send_stream.rs:2059-2066). -/
def Sched.reorder (s : Sched σ) (id : Nat) (x : Strm σ) (order : Option Nat) : Except Err (Sched σ) :=
  let gid := x.group.getD nullGroup
  let put (s : Sched σ) : Except Err (Sched σ) :=
    ({ s with map := imSet s.map id { x with order } } : Sched σ).insertIntoGroup gid id order
  match imFind s.groups gid with
  | none => put s
  | some q =>
    match q.removeStream id x.order with
    | .error e => .error e
    | .ok q => put { s with groups := imSet s.groups gid q }

/-- `set_sendorder` (send_stream.rs:2047-2070). -/
def Sched.setSendOrder (s : Sched σ) (id : Nat) (order : Option Nat) : Except Err (Sched σ) :=
  match s.setFairness id true with
  | .error e => .error e
  | .ok s =>
    match imFind s.map id with
    | none => .error .invalidStreamId
    | some x => if x.order = order then .ok s else s.reorder id x order

/-- A stream is changed by `acked` or `reset_acked` (send_stream.rs:2126-2131). -/
def Sched.acked (w : Writer σ γ) (s : Sched σ) (id : Nat) (f : σ → σ) : Sched σ :=
  match imFind s.map id with
  | none => s
  | some x => { s with map := imSet s.map id { x with st := f x.st }, hasEnded := s.hasEnded || w.ended (f x.st) }

/-- A stream is changed in any other way (send_stream.rs:1941-1943, 2133-2149). -/
def Sched.touch (s : Sched σ) (id : Nat) (f : σ → σ) : Sched σ :=
  match imFind s.map id with
  | none => s
  | some x => { s with map := imSet s.map id { x with st := f x.st } }

/-- `clear` (send_stream.rs:2151-2157). -/
def Sched.clear (_ : Sched σ) : Sched σ := {}

/-- Drop the ended streams from their queues (send_stream.rs:2167-2175). -/
def dropAll (groups : List (Nat × Queues)) : List (Nat × Strm σ) → Except Err (List (Nat × Queues))
  | [] => .ok groups
  | (id, x) :: l =>
    if x.fair then
      match imFind groups (x.group.getD nullGroup) with
      | none => dropAll groups l
      | some q =>
        match q.removeStream id x.order with
        | .error e => .error e
        | .ok q => dropAll (imSet groups (x.group.getD nullGroup) q) l
    else dropAll groups l

/-- `remove_ended` (send_stream.rs:2161-2188). -/
def Sched.removeEnded (w : Writer σ γ) (s : Sched σ) : Except Err (Sched σ × Bool) :=
  if !s.hasEnded then .ok (s, false)
  else
    let gone := s.map.filter (fun e => w.ended e.2.st)
    let map := s.map.filter (fun e => !w.ended e.2.st)
    match dropAll s.groups gone with
    | .error e => .error e
    | .ok groups =>
      let groups := groups.filter (fun e => !e.2.isEmpty)
      .ok ({ map, hasEnded := false, groups, groupNext := clamp s.groupNext groups.length,
             rrNext := clamp s.rrNext map.length }, !gone.isEmpty)

/-- The state while a packet is written: the streams, what they share, the room left, and the calls
so far (latest first). -/
structure Env (σ γ : Type) where
  map : List (Nat × Strm σ)
  sh : γ
  rem : Nat
  log : List Offer := []

/-- How a turn ends. -/
inductive Turn where
  | full
  | wrote
  | nothing
deriving DecidableEq, Repr

/-- Call `write_frames` of a stream. -/
def Env.offer (w : Writer σ γ) (e : Env σ γ) (id : Nat) (x : Strm σ) : Env σ γ × Turn :=
  let r := w.write e.sh x.st e.rem
  ({ map := imSet e.map id { x with st := r.st }, sh := r.sh, rem := r.rem,
     log := { id, room := e.rem, wrote := r.wrote, more := r.more } :: e.log },
   if r.more then (if r.wrote then .wrote else .nothing) else .full)

/-- The unfair streams (send_stream.rs:2231-2239). -/
def unfair (w : Writer σ γ) (e : Env σ γ) : List Nat → Env σ γ
  | [] => e
  | id :: l =>
    match imFind e.map id with
    | none => unfair w e l
    | some x =>
      if x.fair || !w.has x.st then unfair w e l
      else
        match e.offer w id x with
        | (e, .full) => e
        | (e, _) => unfair w e l

/-- The loop over one bucket (send_stream.rs:2334-2349, 2357-2370): streams are offered the packet
until one writes a STREAM frame or the packet is full. -/
def scan (w : Writer σ γ) : Nat → It → Env σ γ → It × Env σ γ × Turn
  | 0, it, e => (it, e, .nothing)
  | n + 1, it, e =>
    match it.step with
    | (it, none) => (it, e, .nothing)
    | (it, some id) =>
      match imFind e.map id with
      | none => scan w n it e
      | some x =>
        match e.offer w id x with
        | (e, .nothing) => scan w n it e
        | (e, t) => (it, e, t)

/-- One bucket. -/
def Og.turn (w : Writer σ γ) (g : Og) (e : Env σ γ) : Og × Env σ γ × Turn :=
  match scan w (g.vec.length + 1) g.iter e with
  | (it, e, t) => (it.g, e, t)

/-- The buckets with an order, the highest first (send_stream.rs:2329-2350): here the lowest is the
head of the list, so the tail is served first. -/
def orderedTurn (w : Writer σ γ) : SMap Og → Env σ γ → SMap Og × Env σ γ × Turn
  | [], e => ([], e, .nothing)
  | (o, g) :: m, e =>
    match orderedTurn w m e with
    | (m, e, .nothing) =>
      match g.turn w e with
      | (g, e, t) => ((o, g) :: m, e, t)
    | (m, e, t) => ((o, g) :: m, e, t)

/-- The turn of a group (send_stream.rs:2317-2371). -/
def Queues.turn (w : Writer σ γ) (q : Queues) (e : Env σ γ) : Queues × Env σ γ × Turn :=
  match orderedTurn w q.ordered e with
  | (ordered, e, .nothing) =>
    match q.regular.turn w e with
    | (regular, e, t) => ({ ordered, regular }, e, t)
  | (ordered, e, t) => ({ q with ordered }, e, t)

/-- What a pass over the groups has come to: the place of the group that filled the packet, or
whether any stream wrote. -/
inductive Passed where
  | full (idx : Nat)
  | done (anyWrote : Bool)
deriving DecidableEq, Repr

/-- One pass over the groups in the order given (send_stream.rs:2316-2371). -/
def pass (w : Writer σ γ) : List Nat → List (Nat × Queues) → Env σ γ → Bool →
    List (Nat × Queues) × Env σ γ × Passed
  | [], gs, e, any => (gs, e, .done any)
  | i :: is, gs, e, any =>
    match gs[i]? with
    | none => pass w is gs e any
    | some (gid, q) =>
      match q.turn w e with
      | (q, e, .full) => (gs.set i (gid, q), e, .full i)
      | (q, e, .wrote) => pass w is (gs.set i (gid, q)) e true
      | (q, e, .nothing) => pass w is (gs.set i (gid, q)) e any

/-- The order of a pass (send_stream.rs:2316-2317). -/
def rotation (start n : Nat) : List Nat := (List.range n).map (fun i => (start + i) % n)

/-- The passes (send_stream.rs:2314-2377).  The number of passes is bounded by the room in the packet
(`passes_enough` in `Verif.Sched.Pass`). -/
def passes (w : Writer σ γ) (start : Nat) : Nat → List (Nat × Queues) → Env σ γ →
    List (Nat × Queues) × Env σ γ × Option Nat
  | 0, gs, e => (gs, e, none)
  | k + 1, gs, e =>
    match pass w (rotation start gs.length) gs e false with
    | (gs, e, .full i) => (gs, e, some i)
    | (gs, e, .done true) => passes w start k gs e
    | (gs, e, .done false) => (gs, e, none)

/-- The fast path (send_stream.rs:2271-2287): the streams at the given places; the place of the one
that filled the packet. -/
def fast (w : Writer σ γ) (e : Env σ γ) : List Nat → Env σ γ × Option Nat
  | [] => (e, none)
  | i :: is =>
    match e.map[i]? with
    | none => fast w e is
    | some (id, x) =>
      if !x.fair || !w.has x.st then fast w e is
      else
        match e.offer w id x with
        | (e, .full) => (e, some i)
        | (e, _) => fast w e is

/-- There is one group, and no order in it (send_stream.rs:2254-2258). -/
def Sched.single (s : Sched σ) : Bool :=
  match s.groups with
  | [(_, q)] => q.ordered.isEmpty
  | _ => false

/-- The part of `write_frames` for fair streams (send_stream.rs:2247-2380). -/
def Sched.writeFair (w : Writer σ γ) (s : Sched σ) (e : Env σ γ) : Sched σ × Env σ γ :=
  if s.groups = [] then ({ s with map := e.map }, e)
  else if s.single then
    let n := e.map.length
    let start := clamp s.rrNext n
    match fast w e (rotation start n) with
    | (e, none) => ({ s with map := e.map, rrNext := start }, e)
    | (e, some i) => ({ s with map := e.map, rrNext := (i + 1) % n }, e)
  else
    let n := s.groups.length
    let start := clamp s.groupNext n
    match passes w start (e.rem + 1) s.groups e with
    | (gs, e, some i) => ({ s with map := e.map, groups := gs, groupNext := (i + 1) % n }, e)
    | (gs, e, none) => ({ s with map := e.map, groups := gs, groupNext := (start + 1) % n }, e)

/-- `write_frames` (send_stream.rs:2190-2381). -/
def Sched.writeFrames (w : Writer σ γ) (s : Sched σ) (sh : γ) (rem : Nat) : Sched σ × Env σ γ :=
  s.writeFair w (unfair w { map := s.map, sh, rem } (s.map.map (·.1)))

end Neqo.Sched
