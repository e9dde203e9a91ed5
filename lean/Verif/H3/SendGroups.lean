import Verif.Lib.Basic
import Verif.Sched.Props

/-!
# Send groups of WebTransport streams

Groups are made for a session by the HTTP/3 layer, which checks that a stream only joins a group of its
own session, and they are put into effect by the scheduler of the transport (`Sched/Model`).
-/
namespace Neqo.Groups

open Neqo.Sched (imFind imSet imInsert SOk Writer WriterOk Strm)

variable {σ γ : Type}

/-! ## The model -/

/-- Errors of the HTTP/3 layer that matter here; `panic` is a failed `expect`. -/
inductive Err where
  | panic
  | invalidStreamId
  | invalidState
  | unavailable
  | streamLimit
  deriving DecidableEq, Repr

/-- An extended CONNECT session (features/extended_connect/webtransport_session.rs:26-44): whether it is
one of WebTransport, whether it is in the table of streams, whether it is active, and its groups. -/
structure Session where
  wt : Bool
  listed : Bool := true
  active : Bool := false
  groups : List Nat := []
  deriving DecidableEq, Repr

/-- A stream that can be written to, of a WebTransport session (webtransport_streams.rs:125-133) or of
another kind. -/
structure HStream where
  session : Option Nat
  group : Option Nat := none
  deriving DecidableEq, Repr

/-- The part of `Http3Connection` (connection.rs:290-320) that matters, with the streams of the
transport.  A stream keeps its session alive, so that sessions stay here when they are not listed any
more.  `used` are the IDs of all streams there have been; the code does not have it. -/
structure Conn (σ : Type) where
  gen : Nat := 0
  sessions : Nat → Option Session := fun _ => none
  streams : Nat → Option HStream := fun _ => none
  sched : Sched.Sched σ := {}
  used : Nat → Bool := fun _ => false

/-- Change one value. -/
def put {α : Type} (f : Nat → α) (k : Nat) (v : α) : Nat → α := fun j => if j = k then v else f j

/-- `Session::validate_send_group` (webtransport_session.rs:78-80, session.rs:643-645). -/
def Conn.known (c : Conn σ) (sid g : Nat) : Bool :=
  match c.sessions sid with
  | some s => decide (g ∈ s.groups)
  | none => false

/-- The check that a group is one of the session (webtransport_streams.rs:175-179,
connection.rs:1544-1548). -/
def Conn.notOwn (c : Conn σ) (sid : Nat) : Option Nat → Bool
  | some g => !c.known sid g
  | none => false

/-- `Session::register_send_group` (webtransport_session.rs:70-75, session.rs:639-641), `gen` having been
counted up. -/
def Conn.register (c : Conn σ) (sid g : Nat) : Conn σ × Except Err Nat :=
  match c.sessions sid with
  | none => (c, .error .invalidStreamId)
  | some s =>
    if s.listed = false ∨ s.wt = false then (c, .error .invalidStreamId)
    else if g ∈ s.groups then (c, .error .invalidState)
    else ({ c with sessions := put c.sessions sid (some { s with groups := g :: s.groups }) }, .ok g)

/-- `webtransport_create_send_group` (connection.rs:1395-1406) with `Generator::next_id`
(send_group.rs:20-24). -/
def Conn.createGroup (c : Conn σ) (sid : Nat) : Conn σ × Except Err Nat :=
  if 2 ^ 64 ≤ c.gen + 1 then (c, .error .panic)
  else ({ c with gen := c.gen + 1 } : Conn σ).register sid (c.gen + 1)

/-- `map_err(|_| Error::InvalidStreamId)` (webtransport.rs:240, connection.rs:1096, 1141). -/
def mapErr : Sched.Err → Err
  | .panic => .panic
  | _ => .invalidStreamId

/-- Take over what the transport did. -/
def Conn.take (c : Conn σ) : Except Sched.Err (Sched.Sched σ) → Conn σ × Option Err
  | .ok s => ({ c with sched := s }, none)
  | .error e => (c, some (mapErr e))

/-- `webtransport_set_sendgroup` and `webtransport_clear_sendgroup` (webtransport.rs:226-249) with
`stream_set_sendgroup`, `stream_clear_sendgroup` (connection.rs:1106-1126) and `update_send_group`
(webtransport_streams.rs:174-182). -/
def Conn.setGroup (c : Conn σ) (id : Nat) (g : Option Nat) : Conn σ × Option Err :=
  match c.streams id with
  | none => (c, some .invalidStreamId)
  | some h =>
    match h.session with
    | none => (c, some .unavailable)
    | some sid =>
      if c.notOwn sid g then (c, some .invalidState)
      else ({ c with streams := put c.streams id (some { h with group := g }) } : Conn σ).take (c.sched.setSendGroup id g)

/-- `webtransport_set_fairness` (webtransport.rs:251-253, connection.rs:1135-1142). -/
def Conn.setFair (c : Conn σ) (id : Nat) (b : Bool) : Conn σ × Option Err := c.take (c.sched.setFairness id b)

/-- `webtransport_set_sendorder` (webtransport.rs:218-224, connection.rs:1090-1097). -/
def Conn.setOrder (c : Conn σ) (id : Nat) (o : Option Nat) : Conn σ × Option Err := c.take (c.sched.setSendOrder id o)

/-- What a new stream is told in the transport (connection.rs:1553-1559). -/
def prepare (s : Sched.Sched σ) (id : Nat) (group : Option Nat) : Sched.Sched σ × Option Sched.Err :=
  match s.setFairness id true with
  | .error e => (s, some e)
  | .ok s =>
    match group with
    | none => (s, none)
    | some g =>
      match s.setSendGroup id (some g) with
      | .error e => (s, some e)
      | .ok s => (s, none)

/-- `webtransport_create_stream_internal` (connection.rs:1594-1652) for a stream that can be written to,
after the transport was told of it. -/
def Conn.opened (c : Conn σ) (wt : Bool) (sid id : Nat) (group : Option Nat)
    (r : Sched.Sched σ × Option Sched.Err) : Conn σ × Option Err :=
  match r.2 with
  | some e => ({ c with sched := r.1 }, some (mapErr e))
  | none =>
    if wt = false then ({ c with sched := r.1 }, some .invalidStreamId)
    else ({ c with sched := r.1, streams := put c.streams id (some { session := some sid, group }),
                   used := put c.used id true }, none)

/-- `webtransport_create_stream_local_with_send_group` (connection.rs:1529-1570).  `id` is the ID of the
new stream; `room` says whether the limit of streams allows it. -/
def Conn.createStream (c : Conn σ) (sid id : Nat) (st : σ) (group : Option Nat) (room : Bool) : Conn σ × Option Err :=
  match c.sessions sid with
  | none => (c, some .invalidStreamId)
  | some s =>
    if s.listed = false ∨ s.active = false then (c, some .invalidStreamId)
    else if c.notOwn sid group then (c, some .invalidState)
    else if room = false then (c, some .streamLimit)
    else c.opened s.wt sid id group (prepare (c.sched.insert id st) id group)

/-- An incoming stream is made fair; the transport may not know it (connection.rs:760-765). -/
def fairIfKnown (s : Sched.Sched σ) (id : Nat) : Except Sched.Err (Sched.Sched σ) :=
  match s.setFairness id true with
  | .ok t => .ok t
  | .error .invalidStreamId => .ok s
  | .error e => .error e

/-- The peer opens a stream of a session (connection.rs:752-769, 1573-1592); `bidi` is false if this side
cannot write to it. -/
def Conn.remoteStream (c : Conn σ) (sid id : Nat) (bidi : Bool) : Conn σ × Option Err :=
  match c.sessions sid with
  | none => (c, none)
  | some s =>
    if s.listed = false then (c, none)
    else
      match fairIfKnown c.sched id with
      | .error e => (c, some (mapErr e))
      | .ok t =>
        if bidi then c.opened s.wt sid id none (t, none)
        else ({ c with sched := t }, if s.wt then none else some .invalidStreamId)

/-- What happens to a connection. -/
inductive Op (σ γ : Type) where
  /-- A request, which is one for a session or not. -/
  | request (id : Nat) (session : Option Bool)
  | activate (sid : Nat)
  /-- A session ends, and with it its streams (connection.rs:1853-1884). -/
  | endSession (sid : Nat)
  | createGroup (sid : Nat)
  | createStream (sid id : Nat) (st : σ) (group : Option Nat) (room : Bool)
  | remoteStream (sid id : Nat) (bidi : Bool)
  | setGroup (id : Nat) (g : Option Nat)
  | setFair (id : Nat) (b : Bool)
  | setOrder (id : Nat) (o : Option Nat)
  /-- The HTTP/3 layer is done with a stream. -/
  | drop (id : Nat)
  /-- The transport gets a stream. -/
  | arrive (id : Nat) (st : σ)
  | acked (id : Nat) (f : σ → σ)
  | touch (id : Nat) (f : σ → σ)
  | write (sh : γ) (rem : Nat)
  | removeEnded

/-- A result of the transport that is not passed on. -/
def Conn.quiet (c : Conn σ) : Except Sched.Err (Sched.Sched σ) → Conn σ × Option Err
  | .ok s => ({ c with sched := s }, none)
  | .error .panic => (c, some .panic)
  | .error _ => (c, none)

/-- Change a session, if it exists. -/
def Conn.session (c : Conn σ) (sid : Nat) (f : Session → Session) : Conn σ :=
  { c with sessions := put c.sessions sid ((c.sessions sid).map f) }

/-- What happened, and the error that was returned. -/
def Conn.step (w : Writer σ γ) (c : Conn σ) : Op σ γ → Conn σ × Option Err
  | .request id session =>
    ({ c with streams := put c.streams id (some { session := none }), used := put c.used id true,
              sessions := put c.sessions id (session.map fun wt => { wt }) }, none)
  | .activate sid => (c.session sid (fun s => { s with active := true }), none)
  | .endSession sid =>
    ({ c.session sid (fun s => { s with active := false, listed := false }) with
       streams := fun j => (c.streams j).filter (fun h => decide (h.session ≠ some sid)) }, none)
  | .createGroup sid =>
    ((c.createGroup sid).1, match (c.createGroup sid).2 with | .ok _ => none | .error e => some e)
  | .createStream sid id st group room => c.createStream sid id st group room
  | .remoteStream sid id bidi => c.remoteStream sid id bidi
  | .setGroup id g => c.setGroup id g
  | .setFair id b => c.setFair id b
  | .setOrder id o => c.setOrder id o
  | .drop id => ({ c with streams := put c.streams id none }, none)
  | .arrive id st => c.quiet (c.sched.exec w (.insert id st))
  | .acked id f => c.quiet (c.sched.exec w (.acked id f))
  | .touch id f => c.quiet (c.sched.exec w (.touch id f))
  | .write sh rem => c.quiet (c.sched.exec w (.write sh rem))
  | .removeEnded => c.quiet (c.sched.exec w .removeEnded)

/-! ## Specification -/

/-- Stream IDs are new. -/
def Op.Allowed (c : Conn σ) : Op σ γ → Prop
  | .request id _ => c.used id = false ∧ c.sessions id = none
  | .createStream _ id _ _ _ => c.used id = false ∧ imFind c.sched.map id = none
  | .remoteStream _ id _ => c.used id = false
  | .arrive id _ => c.used id = false ∧ imFind c.sched.map id = none
  | _ => True

/-- The states of a connection. If `q` holds, no stream was made unfair. -/
inductive Reached (w : Writer σ γ) (q : Prop) : Conn σ → Prop where
  | init : Reached w q {}
  | step {c : Conn σ} (op : Op σ γ) : Reached w q c → op.Allowed c → (q → ∀ id, op ≠ .setFair id false) →
      Reached w q (c.step w op).1

/-- The group in which the transport schedules a stream. -/
def Conn.inGroup (c : Conn σ) (id : Nat) : Option Nat := (imFind c.sched.map id).bind (·.group)

/-- The groups made for a session. -/
def Conn.groupsOf (c : Conn σ) (sid : Nat) : List Nat :=
  match c.sessions sid with
  | some s => s.groups
  | none => []

/-! ## The invariant -/

structure Inv (c : Conn σ) : Prop where
  ok : SOk c.sched
  range : ∀ sid s g, c.sessions sid = some s → g ∈ s.groups → 1 ≤ g ∧ g ≤ c.gen
  distinct : ∀ sid sid' s s' g, c.sessions sid = some s → c.sessions sid' = some s' → g ∈ s.groups → g ∈ s'.groups →
    sid = sid'
  other : ∀ sid s, c.sessions sid = some s → s.wt = false → s.groups = []
  own : ∀ id h g, c.streams id = some h → h.group = some g →
    ∃ sid s, h.session = some sid ∧ c.sessions sid = some s ∧ g ∈ s.groups
  below : ∀ id h x, c.streams id = some h → imFind c.sched.map id = some x → x.group = none ∨ x.group = h.group
  used : ∀ id h, c.streams id = some h → c.used id = true
  usedG : ∀ id x, imFind c.sched.map id = some x → x.group ≠ none → c.used id = true

/-- No stream of a session was made unfair. -/
def AllFair (c : Conn σ) : Prop :=
  ∀ id h x, c.streams id = some h → h.session ≠ none → imFind c.sched.map id = some x → x.fair = true ∧ x.group = h.group

/-- The groups of streams did not change. -/
def Same (s s' : Sched.Sched σ) : Prop :=
  ∀ id x, imFind s'.map id = some x → (∃ y, imFind s.map id = some y ∧ x.group = y.group) ∨
    (imFind s.map id = none ∧ x.group = none)

theorem Inv.init : Inv ({} : Conn σ) := by
  refine ⟨SOk.nil, ?_, ?_, ?_, ?_, ?_, ?_, ?_⟩ <;> intros <;> contradiction

theorem Inv.sched {c : Conn σ} (hi : Inv c) {s : Sched.Sched σ} (hs : SOk s) (h : Same c.sched s) :
    Inv { c with sched := s } := by
  refine ⟨hs, hi.range, hi.distinct, hi.other, hi.own, ?_, hi.used, ?_⟩
  · intro id x y hx hy
    rcases h id y hy with ⟨z, hz, e⟩ | ⟨_, e⟩
    · rw [e]; exact hi.below id x z hx hz
    · exact Or.inl e
  · intro id y hy hn
    rcases h id y hy with ⟨z, hz, e⟩ | ⟨_, e⟩
    · exact hi.usedG id z hz (e ▸ hn)
    · exact absurd e hn

theorem Same.refl (s : Sched.Sched σ) : Same s s := fun _ x hx => Or.inl ⟨x, hx, rfl⟩

theorem Same.imSet {s s' : Sched.Sched σ} {id : Nat} {x y : Strm σ} (hx : imFind s.map id = some x)
    (hm : s'.map = imSet s.map id y) (hg : y.group = x.group) : Same s s' := by
  intro j z hz
  rw [hm, Sched.imFind_imSet] at hz
  by_cases hj : j = id
  · rw [if_pos hj, hx] at hz
    obtain rfl := Option.some.inj hz
    exact Or.inl ⟨x, hj ▸ hx, hg⟩
  · rw [if_neg hj] at hz
    exact Or.inl ⟨z, hz, rfl⟩

theorem Same.sets {s s' : Sched.Sched σ} (h : Sched.sets s'.map = Sched.sets s.map) : Same s s' := by
  intro id x hx
  obtain ⟨st, h1⟩ := Sched.sets_find h.symm id hx
  exact Or.inl ⟨_, h1, rfl⟩

/-- What the transport does of its own. -/
def Plain : Sched.Op σ γ → Prop
  | .insert .. | .acked .. | .touch .. | .write .. | .removeEnded => True
  | _ => False

/-- Whether a stream is added. -/
def adds : Sched.Op σ γ → Bool
  | .insert .. => true
  | _ => false

/-- Streams that the transport knew are as fair as they were. -/
def SameFair (s s' : Sched.Sched σ) : Prop :=
  ∀ id x, imFind s'.map id = some x → imFind s.map id ≠ none → ∃ y, imFind s.map id = some y ∧ x.group = y.group ∧ x.fair = y.fair

theorem SameFair.sets {s s' : Sched.Sched σ} (h : Sched.sets s'.map = Sched.sets s.map) : SameFair s s' := by
  intro id x hx _
  obtain ⟨st, h1⟩ := Sched.sets_find h.symm id hx
  exact ⟨_, h1, rfl, rfl⟩

theorem plain_spec {w : Writer σ γ} (hw : WriterOk w) {s : Sched.Sched σ} (h : SOk s) (op : Sched.Op σ γ)
    (hp : Plain op) (ha : op.Allowed s) :
    ∃ s', s.exec w op = .ok s' ∧ SOk s' ∧ Same s s' ∧ SameFair s s' := by
  cases op with
  | insert id st =>
    refine ⟨_, rfl, Sched.insert_ok h st ha, ?_, ?_⟩
    · intro j x hx
      have e : imFind (s.insert id st).map j = if j = id then some { st } else imFind s.map j := Sched.imFind_imInsert s.map id j _
      rw [e] at hx
      split at hx
      · rename_i hj
        obtain rfl := Option.some.inj hx
        exact Or.inr ⟨hj ▸ ha, rfl⟩
      · exact Or.inl ⟨x, hx, rfl⟩
    · intro j x hx hn
      have e : imFind (s.insert id st).map j = if j = id then some { st } else imFind s.map j := Sched.imFind_imInsert s.map id j _
      rw [e] at hx
      split at hx
      · rename_i hj
        exact absurd (hj ▸ ha) hn
      · exact ⟨x, hx, rfl, rfl⟩
  | acked id f =>
    have hm : Sched.sets (s.acked w id f).map = Sched.sets s.map := by
      unfold Sched.Sched.acked
      split
      · rfl
      · rename_i x hx
        exact Sched.sets_imSet h.keys hx _
    exact ⟨_, rfl, Sched.acked_ok w h id f, Same.sets hm, SameFair.sets hm⟩
  | touch id f =>
    have hm : Sched.sets (s.touch id f).map = Sched.sets s.map := by
      unfold Sched.Sched.touch
      split
      · rfl
      · rename_i x hx
        exact Sched.sets_imSet h.keys hx _
    exact ⟨_, rfl, Sched.touch_ok h id f, Same.sets hm, SameFair.sets hm⟩
  | write sh rem =>
    obtain ⟨e1, os1, os2, d1, _, _, _, _, d2, d3, _, h9, _, _⟩ := Sched.writeFrames_spec hw h sh rem
    have hm : Sched.sets (s.writeFrames w sh rem).1.map = Sched.sets s.map := by
      rw [d3]
      exact d2.sets.trans d1.sets
    exact ⟨_, rfl, h9, Same.sets hm, SameFair.sets hm⟩
  | removeEnded =>
    obtain ⟨s', b, h1, h2, h3, h4⟩ := Sched.removeEnded_spec w h
    have hb : ∀ j x, imFind s'.map j = some x → imFind s.map j = some x := by
      intro j x hx
      cases he : s.hasEnded with
      | false => rw [(h3 he).1] at hx; exact hx
      | true =>
        rw [(h4 he).1, Sched.imFind_filter h.keys] at hx
        exact (Option.filter_eq_some_iff.mp hx).1
    refine ⟨s', ?_, h2, fun j x hx => Or.inl ⟨x, hb j x hx, rfl⟩, fun j x hx _ => ⟨x, hb j x hx, rfl, rfl⟩⟩
    show (s.removeEnded w).map (·.1) = _
    rw [h1]
    rfl
  | group => cases hp
  | order => cases hp
  | fair => cases hp
  | clear => cases hp

/-- A new stream in the transport. -/
theorem prepare_spec {s : Sched.Sched σ} (h : SOk s) {id : Nat} (hn : imFind s.map id = none) (st : σ)
    (group : Option Nat) (hg : group ≠ some 0) :
    ∃ s', prepare (s.insert id st) id group = (s', none) ∧ SOk s' ∧
      ∀ j, imFind s'.map j = if j = id then some { fair := true, group, st } else imFind s.map j := by
  have h0 := Sched.insert_ok h st hn
  have e0 : ∀ j, imFind (s.insert id st).map j = if j = id then some { st } else imFind s.map j :=
    fun j => Sched.imFind_imInsert s.map id j _
  have ex : imFind (s.insert id st).map id = some { st } := by rw [e0, if_pos rfl]
  generalize s.insert id st = t at h0 e0 ex
  unfold prepare
  rcases Sched.setFairness_spec h0 id true with ⟨s1, k1, k2, x, k3, k4, _⟩ | ⟨_, k⟩
  · rw [ex] at k3
    obtain rfl := Option.some.inj k3
    rw [k1]
    have e1 : ∀ j, imFind s1.map j = if j = id then some { fair := true, st } else imFind s.map j := by
      intro j
      rw [k4, Sched.imFind_imSet, ex, e0]
      split <;> rfl
    cases group with
    | none => exact ⟨s1, rfl, k2, e1⟩
    | some g =>
      have ex1 : imFind s1.map id = some { fair := true, st } := by rw [e1, if_pos rfl]
      dsimp only
      rcases Sched.setSendGroup_spec k2 id (some g) with ⟨s2, m1, m2, y, m3, m4, _⟩ | ⟨_, m⟩ | ⟨_, m⟩
      · rw [ex1] at m3
        obtain rfl := Option.some.inj m3
        rw [m1]
        refine ⟨s2, rfl, m2, fun j => ?_⟩
        rw [m4, Sched.imFind_imSet, ex1, e1]
        split <;> rfl
      · rw [ex1] at m; cases m
      · rcases m with m | ⟨y, m, mf, _⟩
        · exact absurd m hg
        · rw [ex1] at m
          obtain rfl := Option.some.inj m
          cases mf
  · rw [ex] at k; cases k

/-- What one event does. -/
structure Fine (c c' : Conn σ) (e : Option Err) (keep : Nat → Prop) (fair : Prop) : Prop where
  inv : Inv c'
  fair : fair → AllFair c → AllFair c'
  panic : c.gen + 1 < 2 ^ 64 → e ≠ some .panic
  kept : ∀ id, keep id → ∀ x x', imFind c.sched.map id = some x → imFind c'.sched.map id = some x' → x'.group = x.group

theorem Fine.same {c : Conn σ} (hi : Inv c) {e : Option Err} (he : e ≠ some .panic) {keep : Nat → Prop} {fair : Prop} :
    Fine c c e keep fair :=
  ⟨hi, fun _ h => h, fun _ => he, fun id _ x x' h h' => by rw [h] at h'; cases h'; rfl⟩

theorem put_same {α : Type} (f : Nat → α) (k : Nat) (v : α) : put f k v k = v := if_pos rfl

theorem put_other {α : Type} (f : Nat → α) {k j : Nat} (v : α) (h : j ≠ k) : put f k v j = f j := if_neg h

/-- An event of the transport. -/
theorem plain_fine {w : Writer σ γ} (hw : WriterOk w) {c : Conn σ} (hi : Inv c) (op : Sched.Op σ γ)
    (hp : Plain op) (ha : op.Allowed c.sched)
    (hnew : ∀ s', c.sched.exec w op = .ok s' → ∀ id h x, c.streams id = some h → imFind s'.map id = some x →
      imFind c.sched.map id ≠ none) {keep : Nat → Prop} {fair : Prop} :
    Fine c (c.quiet (c.sched.exec w op)).1 (c.quiet (c.sched.exec w op)).2 keep fair := by
  obtain ⟨s', h1, h2, h3, h4⟩ := plain_spec hw hi.ok op hp ha
  have hn := hnew s' h1
  rw [h1]
  refine ⟨hi.sched h2 h3, ?_, (fun _ h => by cases h), ?_⟩
  · intro _ hf id h x hh hs hx
    obtain ⟨y, hy, e1, e2⟩ := h4 id x hx (hn id h x hh hx)
    rw [e1, e2]
    exact hf id h y hh hs hy
  · intro id _ x x' hx hx'
    rcases h3 id x' hx' with ⟨y, hy, e⟩ | ⟨hy, _⟩
    · rw [hx] at hy; cases hy; exact e
    · rw [hx] at hy; cases hy

/-- The streams that the transport knows are as many as before, or fewer. -/
theorem plain_old {w : Writer σ γ} (hw : WriterOk w) {s : Sched.Sched σ} (h : SOk s) (op : Sched.Op σ γ)
    (hp : Plain op) (hi : adds op = false) {s' : Sched.Sched σ} (hs : s.exec w op = .ok s') (id : Nat) (x : Strm σ)
    (hx : imFind s'.map id = some x) : imFind s.map id ≠ none := by
  have key : Sched.sets s'.map = Sched.sets s.map → imFind s.map id ≠ none := by
    intro hm
    obtain ⟨st, h1⟩ := Sched.sets_find hm.symm id hx
    rw [h1]; simp
  cases op with
  | insert => cases hi
  | acked i f =>
    cases hs
    apply key
    unfold Sched.Sched.acked
    split
    · rfl
    · rename_i x hx
      exact Sched.sets_imSet h.keys hx _
  | touch i f =>
    cases hs
    apply key
    unfold Sched.Sched.touch
    split
    · rfl
    · rename_i x hx
      exact Sched.sets_imSet h.keys hx _
  | write sh rem =>
    cases hs
    apply key
    obtain ⟨e1, os1, os2, d1, _, _, _, _, d2, d3, _, h9, _, _⟩ := Sched.writeFrames_spec hw h sh rem
    rw [d3]
    exact d2.sets.trans d1.sets
  | removeEnded =>
    obtain ⟨s1, b, h1, h2, h3, h4⟩ := Sched.removeEnded_spec w h
    have hs : (s.removeEnded w).map (·.1) = .ok s' := hs
    rw [h1] at hs
    cases hs
    cases he : s.hasEnded with
    | false => rw [(h3 he).1] at hx; rw [hx]; simp
    | true =>
      rw [(h4 he).1, Sched.imFind_filter h.keys] at hx
      rw [(Option.filter_eq_some_iff.mp hx).1]; simp
  | group => cases hp
  | order => cases hp
  | fair => cases hp
  | clear => cases hp

theorem old_fine {w : Writer σ γ} (hw : WriterOk w) {c : Conn σ} (hi : Inv c) (op : Sched.Op σ γ)
    (hp : Plain op) (ha : op.Allowed c.sched) (ho : adds op = false) {keep : Nat → Prop} {fair : Prop} :
    Fine c (c.quiet (c.sched.exec w op)).1 (c.quiet (c.sched.exec w op)).2 keep fair :=
  plain_fine hw hi op hp ha (fun _ hs id _ x _ hx => plain_old hw hi.ok op hp ho hs id x hx)

/-- The settings of a session are changed, but not its groups. -/
theorem session_inv {c : Conn σ} (hi : Inv c) (sid : Nat) (f : Session → Session)
    (hf : ∀ s, (f s).groups = s.groups ∧ (f s).wt = s.wt) : Inv (c.session sid f) := by
  have back : ∀ j s, (c.session sid f).sessions j = some s →
      ∃ s0, c.sessions j = some s0 ∧ s.groups = s0.groups ∧ s.wt = s0.wt := by
    intro j s h
    have h : put c.sessions sid ((c.sessions sid).map f) j = some s := h
    by_cases hj : j = sid
    · rw [hj, put_same] at h
      obtain ⟨s0, h0, h1⟩ := Option.map_eq_some_iff.mp h
      exact ⟨s0, hj ▸ h0, by rw [← h1]; exact hf s0⟩
    · rw [put_other _ _ hj] at h
      exact ⟨s, h, rfl, rfl⟩
  refine ⟨hi.ok, ?_, ?_, ?_, ?_, hi.below, hi.used, hi.usedG⟩
  · intro j s g h hg
    obtain ⟨s0, h0, h1, _⟩ := back j s h
    exact hi.range j s0 g h0 (h1 ▸ hg)
  · intro j j' s s' g h h' hg hg'
    obtain ⟨s0, h0, h1, _⟩ := back j s h
    obtain ⟨s1, h2, h3, _⟩ := back j' s' h'
    exact hi.distinct j j' s0 s1 g h0 h2 (h1 ▸ hg) (h3 ▸ hg')
  · intro j s h hw
    obtain ⟨s0, h0, h1, h2⟩ := back j s h
    rw [h1]
    exact hi.other j s0 h0 (h2 ▸ hw)
  · intro id h g hh hg
    obtain ⟨j, s, h1, h2, h3⟩ := hi.own id h g hh hg
    by_cases hj : j = sid
    · refine ⟨j, f s, h1, ?_, by rw [(hf s).1]; exact h3⟩
      show put c.sessions sid ((c.sessions sid).map f) j = _
      rw [hj, put_same, ← hj, h2]
      rfl
    · refine ⟨j, s, h1, ?_, h3⟩
      show put c.sessions sid ((c.sessions sid).map f) j = _
      rw [put_other _ _ hj, h2]

/-- Streams are taken away in the HTTP/3 layer. -/
theorem less_inv {c : Conn σ} (hi : Inv c) (t : Nat → Option HStream)
    (h : ∀ j x, t j = some x → c.streams j = some x) : Inv { c with streams := t } :=
  ⟨hi.ok, hi.range, hi.distinct, hi.other, fun id x g hx => hi.own id x g (h id x hx),
    fun id x y hx => hi.below id x y (h id x hx), fun id x hx => hi.used id x (h id x hx), hi.usedG⟩

theorem notOwn_known {c : Conn σ} (hi : Inv c) {sid : Nat} {g : Option Nat} (h : ¬ c.notOwn sid g = true) :
    g ≠ some 0 ∧ ∀ n, g = some n → ∃ s, c.sessions sid = some s ∧ n ∈ s.groups := by
  have k : ∀ n, g = some n → ∃ s, c.sessions sid = some s ∧ n ∈ s.groups := by
    intro n hn
    subst hn
    unfold Conn.notOwn Conn.known at h
    dsimp only at h
    split at h
    · rename_i s hs
      exact ⟨s, hs, by simpa using h⟩
    · simp at h
  refine ⟨?_, k⟩
  intro h0
  obtain ⟨s, hs, hm⟩ := k 0 h0
  have := (hi.range sid s 0 hs hm).1
  omega

theorem mapErr_panic {e : Sched.Err} (h : e ≠ .panic) : some (mapErr e) ≠ some Err.panic := by
  cases e with
  | panic => exact absurd rfl h
  | _ => intro h; cases h

theorem setGroup_fine {c : Conn σ} (hi : Inv c) (id : Nat) (g : Option Nat) {fair : Prop} :
    Fine c (c.setGroup id g).1 (c.setGroup id g).2 (fun j => j ≠ id) fair := by
  unfold Conn.setGroup
  split
  · exact Fine.same hi (by intro h; cases h)
  · rename_i h hh
    split
    · exact Fine.same hi (by intro h; cases h)
    · rename_i sid hsid
      split
      · exact Fine.same hi (by intro h; cases h)
      · rename_i hno
        obtain ⟨hg0, hgk⟩ := notOwn_known hi hno
        have hown : ∀ j h' n, put c.streams id (some { h with group := g }) j = some h' → h'.group = some n →
            ∃ sid s, h'.session = some sid ∧ c.sessions sid = some s ∧ n ∈ s.groups := by
          intro j h' n hj hn
          by_cases e : j = id
          · rw [e, put_same] at hj
            obtain rfl := Option.some.inj hj
            obtain ⟨s, h1, h2⟩ := hgk n hn
            exact ⟨sid, s, hsid, h1, h2⟩
          · rw [put_other _ _ e] at hj
            exact hi.own j h' n hj hn
        have hused : ∀ j h', put c.streams id (some { h with group := g }) j = some h' → c.used j = true := by
          intro j h' hj
          by_cases e : j = id
          · rw [e]; exact hi.used id h hh
          · rw [put_other _ _ e] at hj
            exact hi.used j h' hj
        rcases Sched.setSendGroup_spec hi.ok id g with ⟨s', k1, k2, x, k3, k4, _, _, k5⟩ | ⟨k1, k2⟩ | ⟨k1, k2⟩
        · rw [k1]
          have hf : ∀ j y, imFind s'.map j = some y →
              (j = id ∧ y = { x with group := g }) ∨ (j ≠ id ∧ imFind c.sched.map j = some y) := by
            intro j y hy
            rw [k4, Sched.imFind_imSet, k3] at hy
            by_cases e : j = id
            · rw [if_pos e] at hy
              exact Or.inl ⟨e, (Option.some.inj hy).symm⟩
            · rw [if_neg e] at hy
              exact Or.inr ⟨e, hy⟩
          refine ⟨⟨k2, hi.range, hi.distinct, hi.other, hown, ?_, hused, ?_⟩, ?_, (fun _ h => by cases h), ?_⟩
          · intro j h' y hj hy
            rcases hf j y hy with ⟨e, rfl⟩ | ⟨e, hy⟩
            · have hj : put c.streams id (some { h with group := g }) j = some h' := hj
              rw [e, put_same] at hj
              obtain rfl := Option.some.inj hj
              exact Or.inr rfl
            · have hj : put c.streams id (some { h with group := g }) j = some h' := hj
              rw [put_other _ _ e] at hj
              exact hi.below j h' y hj hy
          · intro j y hy hn
            rcases hf j y hy with ⟨e, rfl⟩ | ⟨e, hy⟩
            · rw [e]; exact hi.used id h hh
            · exact hi.usedG j y hy hn
          · intro _ haf j h' y hj hs hy
            have hj : put c.streams id (some { h with group := g }) j = some h' := hj
            rcases hf j y hy with ⟨e, rfl⟩ | ⟨e, hy⟩
            · rw [e, put_same] at hj
              obtain rfl := Option.some.inj hj
              exact ⟨(haf id h x hh hs k3).1, rfl⟩
            · rw [put_other _ _ e] at hj
              exact haf j h' y hj hs hy
          · intro j hj y y' hy hy'
            rcases hf j y' hy' with ⟨e, _⟩ | ⟨_, h2⟩
            · exact absurd e hj
            · rw [hy] at h2; cases h2; rfl
        · rw [k1]
          refine ⟨⟨hi.ok, hi.range, hi.distinct, hi.other, hown, ?_, hused, hi.usedG⟩, ?_, (fun _ h => by cases h), ?_⟩
          · intro j h' y hj hy
            have hj : put c.streams id (some { h with group := g }) j = some h' := hj
            have hy : imFind c.sched.map j = some y := hy
            by_cases e : j = id
            · rw [e, k2] at hy; cases hy
            · rw [put_other _ _ e] at hj
              exact hi.below j h' y hj hy
          · intro _ haf j h' y hj hs hy
            have hj : put c.streams id (some { h with group := g }) j = some h' := hj
            have hy : imFind c.sched.map j = some y := hy
            by_cases e : j = id
            · rw [e, k2] at hy; cases hy
            · rw [put_other _ _ e] at hj
              exact haf j h' y hj hs hy
          · intro j _ y y' hy hy'
            have hy' : imFind c.sched.map j = some y' := hy'
            rw [hy] at hy'; cases hy'; rfl
        · rw [k1]
          rcases k2 with k2 | ⟨x, k2, k3, _⟩
          · exact absurd k2 hg0
          · refine ⟨⟨hi.ok, hi.range, hi.distinct, hi.other, hown, ?_, hused, hi.usedG⟩, ?_, (fun _ h => by cases h), ?_⟩
            · intro j h' y hj hy
              have hj : put c.streams id (some { h with group := g }) j = some h' := hj
              have hy : imFind c.sched.map j = some y := hy
              by_cases e : j = id
              · exact Or.inl (hi.ok.unf j y hy (by rw [e, k2] at hy; cases hy; exact k3))
              · rw [put_other _ _ e] at hj
                exact hi.below j h' y hj hy
            · intro _ haf
              have := (haf id h x hh (by rw [hsid]; simp) k2).1
              rw [k3] at this
              cases this
            · intro j _ y y' hy hy'
              have hy' : imFind c.sched.map j = some y' := hy'
              rw [hy] at hy'; cases hy'; rfl

/-- Fairness or order is set. -/
theorem set_fine {c : Conn σ} (hi : Inv c) {id : Nat} {s : Sched.Sched σ} {x y : Strm σ} (hs : SOk s)
    (hx : imFind c.sched.map id = some x) (hm : s.map = imSet c.sched.map id y) (hg : y.group = x.group ∨ y.group = none)
    {keep : Nat → Prop} {fair : Prop} (hk : ∀ j, keep j → j = id → y.group = x.group)
    (hf : fair → y.fair = true ∧ y.group = x.group) : Fine c { c with sched := s } none keep fair := by
  have back : ∀ j z, imFind s.map j = some z → (j = id ∧ z = y) ∨ (j ≠ id ∧ imFind c.sched.map j = some z) := by
    intro j z hz
    rw [hm, Sched.imFind_imSet, hx] at hz
    by_cases e : j = id
    · rw [if_pos e] at hz
      exact Or.inl ⟨e, (Option.some.inj hz).symm⟩
    · rw [if_neg e] at hz
      exact Or.inr ⟨e, hz⟩
  refine ⟨⟨hs, hi.range, hi.distinct, hi.other, hi.own, ?_, hi.used, ?_⟩, ?_, (fun _ h => by cases h), ?_⟩
  · intro j h z hj hz
    rcases back j z hz with ⟨e, rfl⟩ | ⟨_, hz⟩
    · rcases hg with hg | hg
      · rw [hg]; exact hi.below j h x hj (e ▸ hx)
      · exact Or.inl hg
    · exact hi.below j h z hj hz
  · intro j z hz hn
    rcases back j z hz with ⟨e, rfl⟩ | ⟨_, hz⟩
    · rcases hg with hg | hg
      · exact hi.usedG j x (e ▸ hx) (hg ▸ hn)
      · exact absurd hg hn
    · exact hi.usedG j z hz hn
  · intro hfair haf j h z hj hss hz
    rcases back j z hz with ⟨e, rfl⟩ | ⟨_, hz⟩
    · obtain ⟨f1, f2⟩ := hf hfair
      exact ⟨f1, f2.trans (haf j h x hj hss (e ▸ hx)).2⟩
    · exact haf j h z hj hss hz
  · intro j hj z z' hz hz'
    rcases back j z' hz' with ⟨e, rfl⟩ | ⟨_, hz'⟩
    · rw [e, hx] at hz
      cases hz
      exact hk j hj e
    · rw [hz] at hz'; cases hz'; rfl

theorem setFair_fine {c : Conn σ} (hi : Inv c) (id : Nat) (b : Bool) :
    Fine c (c.setFair id b).1 (c.setFair id b).2 (fun j => b = false → j ≠ id) (b = true) := by
  unfold Conn.setFair
  rcases Sched.setFairness_spec hi.ok id b with ⟨s', k1, k2, x, k3, k4, _⟩ | ⟨k1, _⟩
  · rw [k1]
    refine set_fine hi k2 k3 k4 ?_ ?_ ?_
    · cases b
      · exact Or.inr rfl
      · exact Or.inl rfl
    · intro j hj e
      cases b with
      | false => exact absurd e (hj rfl)
      | true => rfl
    · rintro rfl
      exact ⟨rfl, rfl⟩
  · rw [k1]; exact Fine.same hi (by intro h; cases h)

theorem setOrder_fine {c : Conn σ} (hi : Inv c) (id : Nat) (o : Option Nat) {keep : Nat → Prop} {fair : Prop} :
    Fine c (c.setOrder id o).1 (c.setOrder id o).2 keep fair := by
  unfold Conn.setOrder
  rcases Sched.setSendOrder_spec hi.ok id o with ⟨s', k1, k2, x, k3, k4, _⟩ | ⟨k1, _⟩
  · rw [k1]
    exact set_fine hi k2 k3 k4 (Or.inl rfl) (fun _ _ _ => rfl) (fun _ => ⟨rfl, rfl⟩)
  · rw [k1]; exact Fine.same hi (by intro h; cases h)

/-- A stream is added to both layers. -/
theorem add_fine {c : Conn σ} (hi : Inv c) {id sid : Nat} {group : Option Nat} {s : Sched.Sched σ} (hs : SOk s)
    (hu : c.used id = false)
    (hold : ∀ j x, j ≠ id → imFind s.map j = some x → imFind c.sched.map j = some x)
    (hnew : ∀ x, imFind s.map id = some x → x.fair = true ∧ x.group = group)
    (hg : ∀ n, group = some n → ∃ t, c.sessions sid = some t ∧ n ∈ t.groups)
    {keep : Nat → Prop} {fair : Prop}
    (hk : ∀ x, imFind c.sched.map id = some x → group = none) :
    Fine c { c with sched := s, streams := put c.streams id (some { session := some sid, group }), used := put c.used id true }
      none keep fair := by
  have hno : ∀ x, imFind c.sched.map id = some x → x.group = none := by
    intro x hx
    cases hxg : x.group with
    | none => rfl
    | some n =>
      have := hi.usedG id x hx (by rw [hxg]; simp)
      rw [hu] at this; cases this
  refine ⟨⟨hs, hi.range, hi.distinct, hi.other, ?_, ?_, ?_, ?_⟩, ?_, (fun _ h => by cases h), ?_⟩
  · intro j h n hj hn
    have hj : put c.streams id (some { session := some sid, group }) j = some h := hj
    by_cases e : j = id
    · rw [e, put_same] at hj
      obtain rfl := Option.some.inj hj
      obtain ⟨t, h1, h2⟩ := hg n hn
      exact ⟨sid, t, rfl, h1, h2⟩
    · rw [put_other _ _ e] at hj
      exact hi.own j h n hj hn
  · intro j h x hj hx
    have hj : put c.streams id (some { session := some sid, group }) j = some h := hj
    by_cases e : j = id
    · rw [e, put_same] at hj
      obtain rfl := Option.some.inj hj
      exact Or.inr (hnew x (e ▸ hx)).2
    · rw [put_other _ _ e] at hj
      exact hi.below j h x hj (hold j x e hx)
  · intro j h hj
    have hj : put c.streams id (some { session := some sid, group }) j = some h := hj
    show put c.used id true j = true
    by_cases e : j = id
    · rw [e, put_same]
    · rw [put_other _ _ e] at hj ⊢
      exact hi.used j h hj
  · intro j x hx hn
    show put c.used id true j = true
    by_cases e : j = id
    · rw [e, put_same]
    · rw [put_other _ _ e]
      exact hi.usedG j x (hold j x e hx) hn
  · intro _ haf j h x hj hss hx
    have hj : put c.streams id (some { session := some sid, group }) j = some h := hj
    by_cases e : j = id
    · rw [e, put_same] at hj
      obtain rfl := Option.some.inj hj
      exact hnew x (e ▸ hx)
    · rw [put_other _ _ e] at hj
      exact haf j h x hj hss (hold j x e hx)
  · intro j _ x x' hx hx'
    by_cases e : j = id
    · rw [e] at hx
      rw [hno x hx, (hnew x' (e ▸ hx')).2]
      exact hk x hx
    · have := hold j x' e hx'
      rw [hx] at this; cases this; rfl

/-- A stream is only added to the transport. -/
theorem add_below {c : Conn σ} (hi : Inv c) {id : Nat} {s : Sched.Sched σ} (hs : SOk s) (hu : c.used id = false)
    (hold : ∀ j x, j ≠ id → imFind s.map j = some x → imFind c.sched.map j = some x)
    (hnew : ∀ x, imFind s.map id = some x → x.group = none) {e : Option Err} (he : e ≠ some .panic)
    {keep : Nat → Prop} {fair : Prop} : Fine c { c with sched := s } e keep fair := by
  have hstr : ∀ h, c.streams id ≠ some h := by
    intro h hh
    have := hi.used id h hh
    rw [hu] at this; cases this
  have hno : ∀ x, imFind c.sched.map id = some x → x.group = none := by
    intro x hx
    cases hxg : x.group with
    | none => rfl
    | some n =>
      have := hi.usedG id x hx (by rw [hxg]; simp)
      rw [hu] at this; cases this
  refine ⟨⟨hs, hi.range, hi.distinct, hi.other, hi.own, ?_, hi.used, ?_⟩, ?_, fun _ => he, ?_⟩
  · intro j h x hj hx
    by_cases e : j = id
    · exact absurd (e ▸ hj) (hstr h)
    · exact hi.below j h x hj (hold j x e hx)
  · intro j x hx hn
    by_cases e : j = id
    · exact absurd (hnew x (e ▸ hx)) hn
    · exact hi.usedG j x (hold j x e hx) hn
  · intro _ haf j h x hj hss hx
    by_cases e : j = id
    · exact absurd (e ▸ hj) (hstr h)
    · exact haf j h x hj hss (hold j x e hx)
  · intro j _ x x' hx hx'
    by_cases e : j = id
    · rw [e] at hx
      rw [hno x hx, hnew x' (e ▸ hx')]
    · have := hold j x' e hx'
      rw [hx] at this; cases this; rfl

theorem createStream_fine {c : Conn σ} (hi : Inv c) (sid id : Nat) (st : σ) (group : Option Nat) (room : Bool)
    (hu : c.used id = false) (hn : imFind c.sched.map id = none) {keep : Nat → Prop} {fair : Prop} :
    Fine c (c.createStream sid id st group room).1 (c.createStream sid id st group room).2 keep fair := by
  unfold Conn.createStream
  split
  · exact Fine.same hi (by intro h; cases h)
  · rename_i s hs
    split
    · exact Fine.same hi (by intro h; cases h)
    · split
      · exact Fine.same hi (by intro h; cases h)
      · rename_i hno
        obtain ⟨hg0, hgk⟩ := notOwn_known hi hno
        split
        · exact Fine.same hi (by intro h; cases h)
        · obtain ⟨s', k1, k2, k3⟩ := prepare_spec hi.ok hn st group hg0
          rw [k1]
          have hold : ∀ j x, j ≠ id → imFind s'.map j = some x → imFind c.sched.map j = some x := by
            intro j x hj hx
            rw [k3, if_neg hj] at hx; exact hx
          unfold Conn.opened
          dsimp only
          split
          · rename_i hwt
            refine add_below hi k2 hu hold ?_ (by intro h; cases h)
            intro x hx
            rw [k3, if_pos rfl] at hx
            obtain rfl := Option.some.inj hx
            cases hg : group with
            | none => rfl
            | some n =>
              obtain ⟨t, h1, h2⟩ := hgk n hg
              rw [hs] at h1
              obtain rfl := Option.some.inj h1
              rw [hi.other sid s hs hwt] at h2
              cases h2
          · refine add_fine hi k2 hu hold ?_ hgk ?_
            · intro x hx
              rw [k3, if_pos rfl] at hx
              obtain rfl := Option.some.inj hx
              exact ⟨rfl, rfl⟩
            · intro x hx
              rw [hn] at hx; cases hx

theorem remoteStream_fine {c : Conn σ} (hi : Inv c) (sid id : Nat) (bidi : Bool) (hu : c.used id = false)
    {keep : Nat → Prop} {fair : Prop} :
    Fine c (c.remoteStream sid id bidi).1 (c.remoteStream sid id bidi).2 keep fair := by
  unfold Conn.remoteStream
  split
  · exact Fine.same hi (by intro h; cases h)
  · rename_i s hs
    split
    · exact Fine.same hi (by intro h; cases h)
    · have hno : ∀ x, imFind c.sched.map id = some x → x.group = none := by
        intro x hx
        cases hxg : x.group with
        | none => rfl
        | some n =>
          have := hi.usedG id x hx (by rw [hxg]; simp)
          rw [hu] at this; cases this
      obtain ⟨t, k1, k2, k3, k4⟩ : ∃ t, fairIfKnown c.sched id = .ok t ∧ SOk t ∧
          (∀ j x, j ≠ id → imFind t.map j = some x → imFind c.sched.map j = some x) ∧
          (∀ x, imFind t.map id = some x → x.fair = true ∧ x.group = none) := by
        unfold fairIfKnown
        rcases Sched.setFairness_spec hi.ok id true with ⟨s', k1, k2, x, k3, k4, _⟩ | ⟨k1, k2⟩
        · rw [k1]
          refine ⟨s', rfl, k2, ?_, ?_⟩
          · intro j y hj hy
            rw [k4, Sched.imFind_imSet, if_neg hj] at hy
            exact hy
          · intro y hy
            rw [k4, Sched.imFind_imSet, if_pos rfl, k3] at hy
            obtain rfl := Option.some.inj hy
            exact ⟨rfl, hno x k3⟩
        · rw [k1]
          refine ⟨_, rfl, hi.ok, fun _ _ _ h => h, ?_⟩
          intro x hx
          rw [k2] at hx; cases hx
      rw [k1]
      dsimp only
      split
      · unfold Conn.opened
        dsimp only
        split
        · exact add_below hi k2 hu k3 (fun x hx => (k4 x hx).2) (by intro h; cases h)
        · exact add_fine hi k2 hu k3 k4 (fun n h => by cases h) (fun _ _ => rfl)
      · refine add_below hi k2 hu k3 (fun x hx => (k4 x hx).2) ?_
        split <;> intro h <;> cases h

/-- The sessions and the counter change; the groups that there were stay. -/
theorem sessions_fine {c : Conn σ} (hi : Inv c) {gen : Nat} {f : Nat → Option Session}
    (hr : ∀ sid s g, f sid = some s → g ∈ s.groups → 1 ≤ g ∧ g ≤ gen)
    (hd : ∀ sid sid' s s' g, f sid = some s → f sid' = some s' → g ∈ s.groups → g ∈ s'.groups → sid = sid')
    (ho : ∀ sid s, f sid = some s → s.wt = false → s.groups = [])
    (hm : ∀ sid s g, c.sessions sid = some s → g ∈ s.groups → ∃ s', f sid = some s' ∧ g ∈ s'.groups)
    {e : Option Err} (he : c.gen + 1 < 2 ^ 64 → e ≠ some .panic) {keep : Nat → Prop} {fair : Prop} :
    Fine c { c with gen, sessions := f } e keep fair := by
  refine ⟨⟨hi.ok, hr, hd, ho, ?_, hi.below, hi.used, hi.usedG⟩, fun _ h => h, he, ?_⟩
  · intro id h g hh hg
    obtain ⟨sid, s, h1, h2, h3⟩ := hi.own id h g hh hg
    obtain ⟨s', h4, h5⟩ := hm sid s g h2 h3
    exact ⟨sid, s', h1, h4, h5⟩
  · intro id _ x x' hx hx'
    have hx' : imFind c.sched.map id = some x' := hx'
    rw [hx] at hx'; cases hx'; rfl

/-- What making a group does. -/
theorem createGroup_cases {c : Conn σ} (hi : Inv c) (sid : Nat) :
    (2 ^ 64 ≤ c.gen + 1 ∧ c.createGroup sid = (c, .error .panic)) ∨
    (∃ e, e ≠ Err.panic ∧ c.createGroup sid = ({ c with gen := c.gen + 1 }, .error e)) ∨
    (∃ s, c.sessions sid = some s ∧ s.wt = true ∧ c.createGroup sid =
      ({ c with gen := c.gen + 1, sessions := put c.sessions sid (some { s with groups := (c.gen + 1) :: s.groups }) },
        .ok (c.gen + 1))) := by
  unfold Conn.createGroup
  split
  · rename_i h
    exact Or.inl ⟨h, rfl⟩
  · right
    unfold Conn.register
    dsimp only
    split
    · exact Or.inl ⟨_, by decide, rfl⟩
    · rename_i s hs
      split
      · exact Or.inl ⟨_, by decide, rfl⟩
      · rename_i hw
        split
        · rename_i hg
          have := (hi.range sid s _ hs hg).2
          omega
        · refine Or.inr ⟨s, hs, ?_, rfl⟩
          cases h : s.wt with
          | true => rfl
          | false => exact absurd (Or.inr h) hw

theorem createGroup_fine {c : Conn σ} (hi : Inv c) (sid : Nat) {keep : Nat → Prop} {fair : Prop} :
    Fine c (c.createGroup sid).1 (match (c.createGroup sid).2 with | .ok _ => none | .error e => some e) keep fair := by
  rcases createGroup_cases hi sid with ⟨h, e⟩ | ⟨e, h, e'⟩ | ⟨s, hs, hw, e⟩
  · rw [e]
    exact ⟨hi, fun _ h => h, fun h' => by omega, fun id _ x x' hx hx' => by rw [hx] at hx'; cases hx'; rfl⟩
  · rw [e']
    refine sessions_fine hi (fun sid s g h1 h2 => ?_) hi.distinct hi.other (fun sid s g h1 h2 => ⟨s, h1, h2⟩) ?_
    · have := hi.range sid s g h1 h2
      omega
    · intro _ h'
      exact h (Option.some.inj h')
  · rw [e]
    have back : ∀ j s', put c.sessions sid (some { s with groups := (c.gen + 1) :: s.groups }) j = some s' →
        ∃ s0, c.sessions j = some s0 ∧ s'.wt = s0.wt ∧ (s'.groups = s0.groups ∨ (j = sid ∧ s'.groups = (c.gen + 1) :: s0.groups)) := by
      intro j s' h
      by_cases ej : j = sid
      · rw [ej, put_same] at h
        obtain rfl := Option.some.inj h
        exact ⟨s, ej ▸ hs, rfl, Or.inr ⟨ej, rfl⟩⟩
      · rw [put_other _ _ ej] at h
        exact ⟨s', h, rfl, Or.inl rfl⟩
    have old : ∀ j s' g, put c.sessions sid (some { s with groups := (c.gen + 1) :: s.groups }) j = some s' → g ∈ s'.groups →
        (g = c.gen + 1 ∧ j = sid) ∨ (g ≤ c.gen ∧ ∃ s0, c.sessions j = some s0 ∧ g ∈ s0.groups) := by
      intro j s' g h hg
      obtain ⟨s0, h0, _, h1 | ⟨h2, h1⟩⟩ := back j s' h
      · rw [h1] at hg
        exact Or.inr ⟨(hi.range j s0 g h0 hg).2, s0, h0, hg⟩
      · rw [h1] at hg
        rcases List.mem_cons.mp hg with hg | hg
        · exact Or.inl ⟨hg, h2⟩
        · exact Or.inr ⟨(hi.range j s0 g h0 hg).2, s0, h0, hg⟩
    refine sessions_fine hi ?_ ?_ ?_ ?_ (fun _ h => by cases h)
    · intro j s' g h hg
      rcases old j s' g h hg with ⟨h1, _⟩ | ⟨_, s0, h0, h1⟩
      · omega
      · have := hi.range j s0 g h0 h1
        omega
    · intro j j' s1 s2 g h1 h2 g1 g2
      rcases old j s1 g h1 g1 with ⟨a1, a2⟩ | ⟨a1, a, a2, a3⟩ <;> rcases old j' s2 g h2 g2 with ⟨b1, b2⟩ | ⟨b1, b, b2, b3⟩
      · rw [a2, b2]
      · omega
      · omega
      · exact hi.distinct j j' a b g a2 b2 a3 b3
    · intro j s' h hw'
      obtain ⟨s0, h0, h1, h2 | ⟨h2, _⟩⟩ := back j s' h
      · rw [h2]; exact hi.other j s0 h0 (h1 ▸ hw')
      · rw [h2, hs] at h0
        obtain rfl := Option.some.inj h0
        rw [h1, hw] at hw'
        cases hw'
    · intro j s' g h hg
      by_cases ej : j = sid
      · rw [ej, hs] at h
        obtain rfl := Option.some.inj h
        exact ⟨_, by rw [ej, put_same], List.mem_cons_of_mem _ hg⟩
      · exact ⟨s', by rw [put_other _ _ ej]; exact h, hg⟩

/-- The streams whose group an event leaves as it is. -/
def Op.keeps : Op σ γ → Nat → Prop
  | .setGroup id _, j => j ≠ id
  | .setFair id b, j => b = false → j ≠ id
  | _, _ => True

theorem step_fine {w : Writer σ γ} (hw : WriterOk w) {c : Conn σ} (hi : Inv c) (op : Op σ γ) (ha : op.Allowed c) :
    Fine c (c.step w op).1 (c.step w op).2 op.keeps (∀ id, op ≠ .setFair id false) := by
  have known : ∀ id h, c.streams id = some h → c.used id = false → False := by
    intro id h hh hu
    have := hi.used id h hh
    rw [hu] at this; cases this
  cases op with
  | request id session =>
    obtain ⟨hu, hn⟩ := ha
    have hs : ∀ j s, put c.sessions id (session.map fun wt => ({ wt } : Session)) j = some s →
        (j = id ∧ s.groups = []) ∨ (j ≠ id ∧ c.sessions j = some s) := by
      intro j s h
      by_cases e : j = id
      · rw [e, put_same] at h
        obtain ⟨b, _, rfl⟩ := Option.map_eq_some_iff.mp h
        exact Or.inl ⟨e, rfl⟩
      · rw [put_other _ _ e] at h
        exact Or.inr ⟨e, h⟩
    refine ⟨⟨hi.ok, ?_, ?_, ?_, ?_, ?_, ?_, ?_⟩, ?_, (fun _ h => by cases h), ?_⟩
    · intro j s g h hg
      rcases hs j s h with ⟨_, e⟩ | ⟨_, h⟩
      · rw [e] at hg; cases hg
      · exact hi.range j s g h hg
    · intro j j' s s' g h h' hg hg'
      rcases hs j s h with ⟨_, e⟩ | ⟨_, h⟩
      · rw [e] at hg; cases hg
      · rcases hs j' s' h' with ⟨_, e⟩ | ⟨_, h'⟩
        · rw [e] at hg'; cases hg'
        · exact hi.distinct j j' s s' g h h' hg hg'
    · intro j s h hwt
      rcases hs j s h with ⟨_, e⟩ | ⟨_, h⟩
      · exact e
      · exact hi.other j s h hwt
    · intro j h g hj hg
      have hj : put c.streams id (some { session := none }) j = some h := hj
      by_cases e : j = id
      · rw [e, put_same] at hj
        obtain rfl := Option.some.inj hj
        cases hg
      · rw [put_other _ _ e] at hj
        obtain ⟨sid, s, h1, h2, h3⟩ := hi.own j h g hj hg
        refine ⟨sid, s, h1, ?_, h3⟩
        show put c.sessions id _ sid = some s
        rw [put_other]
        · exact h2
        · intro e'
          rw [e', hn] at h2; cases h2
    · intro j h x hj hx
      have hj : put c.streams id (some { session := none }) j = some h := hj
      have hx : imFind c.sched.map j = some x := hx
      by_cases e : j = id
      · left
        cases hg : x.group with
        | none => rfl
        | some n =>
          have := hi.usedG j x hx (by rw [hg]; simp)
          rw [e, hu] at this; cases this
      · rw [put_other _ _ e] at hj
        exact hi.below j h x hj hx
    · intro j h hj
      have hj : put c.streams id (some { session := none }) j = some h := hj
      show put c.used id true j = true
      by_cases e : j = id
      · rw [e, put_same]
      · rw [put_other _ _ e] at hj ⊢
        exact hi.used j h hj
    · intro j x hx hg
      show put c.used id true j = true
      by_cases e : j = id
      · rw [e, put_same]
      · rw [put_other _ _ e]
        exact hi.usedG j x hx hg
    · intro _ haf j h x hj hss hx
      have hj : put c.streams id (some { session := none }) j = some h := hj
      by_cases e : j = id
      · rw [e, put_same] at hj
        obtain rfl := Option.some.inj hj
        exact absurd rfl hss
      · rw [put_other _ _ e] at hj
        exact haf j h x hj hss hx
    · intro j _ x x' hx hx'
      have hx' : imFind c.sched.map j = some x' := hx'
      rw [hx] at hx'; cases hx'; rfl
  | activate sid =>
    refine ⟨session_inv hi sid _ (fun s => ⟨rfl, rfl⟩), fun _ h => h, (fun _ h => by cases h), ?_⟩
    intro j _ x x' hx hx'
    have hx' : imFind c.sched.map j = some x' := hx'
    rw [hx] at hx'; cases hx'; rfl
  | endSession sid =>
    have hsub : ∀ j x, (c.streams j).filter (fun h => decide (h.session ≠ some sid)) = some x → c.streams j = some x :=
      fun j x h => (Option.filter_eq_some_iff.mp h).1
    refine ⟨less_inv (session_inv hi sid (fun s => { s with active := false, listed := false }) (fun s => ⟨rfl, rfl⟩)) _ hsub,
      ?_, (fun _ h => by cases h), ?_⟩
    · intro _ haf j h x hj hss hx
      exact haf j h x (hsub j h hj) hss hx
    · intro j _ x x' hx hx'
      have hx' : imFind c.sched.map j = some x' := hx'
      rw [hx] at hx'; cases hx'; rfl
  | createGroup sid => exact createGroup_fine hi sid
  | createStream sid id st group room => exact createStream_fine hi sid id st group room ha.1 ha.2
  | remoteStream sid id bidi => exact remoteStream_fine hi sid id bidi ha
  | setGroup id g => exact setGroup_fine hi id g
  | setFair id b =>
    have := setFair_fine hi id b
    exact ⟨this.inv, fun h => this.fair (by cases b with | true => rfl | false => exact absurd rfl (h id)), this.panic, this.kept⟩
  | setOrder id o => exact setOrder_fine hi id o
  | drop id =>
    have hsub : ∀ j x, put c.streams id none j = some x → c.streams j = some x := by
      intro j x h
      by_cases e : j = id
      · rw [e, put_same] at h; cases h
      · rw [put_other _ _ e] at h; exact h
    refine ⟨less_inv hi _ hsub, fun _ haf j h x hj => haf j h x (hsub j h hj), (fun _ h => by cases h), ?_⟩
    intro j _ x x' hx hx'
    have hx' : imFind c.sched.map j = some x' := hx'
    rw [hx] at hx'; cases hx'; rfl
  | arrive id st =>
    refine plain_fine hw hi (.insert id st) trivial ha.2 ?_
    intro s' hs' j h x hj hx
    cases hs'
    have e : imFind (c.sched.insert id st).map j = if j = id then some { st } else imFind c.sched.map j :=
      Sched.imFind_imInsert c.sched.map id j _
    rw [e] at hx
    split at hx
    · rename_i e
      exact (known j h hj (e ▸ ha.1)).elim
    · rw [hx]; simp
  | acked id f =>
    exact old_fine hw hi (.acked id f) trivial trivial rfl
  | touch id f =>
    exact old_fine hw hi (.touch id f) trivial trivial rfl
  | write sh rem => exact old_fine hw hi (.write sh rem) trivial trivial rfl
  | removeEnded => exact old_fine hw hi .removeEnded trivial trivial rfl

theorem Reached.inv {w : Writer σ γ} (hw : WriterOk w) {q : Prop} {c : Conn σ} (h : Reached w q c) : Inv c := by
  induction h with
  | init => exact Inv.init
  | step op _ ha _ ih => exact (step_fine hw ih op ha).inv

theorem Reached.fair {w : Writer σ γ} (hw : WriterOk w) {q : Prop} (hq : q) {c : Conn σ} (h : Reached w q c) : AllFair c := by
  induction h with
  | init => intro id h x hh; cases hh
  | step op hr ha hf ih => exact (step_fine hw (hr.inv hw) op ha).fair (hf hq) ih

/-! ## A connection for the examples -/

instance (c : Conn σ) (op : Op σ γ) : Decidable (op.Allowed c) := by
  cases op <;> unfold Op.Allowed <;> infer_instance

/-- Several events, if they are allowed. -/
def runs (w : Writer σ γ) (c : Conn σ) : List (Op σ γ) → Option (Conn σ)
  | [] => some c
  | op :: l => if op.Allowed c then runs w (c.step w op).1 l else none

theorem runs_reached {w : Writer σ γ} {q : Prop} {c c' : Conn σ} (h : Reached w q c) (l : List (Op σ γ))
    (hq : q → ∀ op ∈ l, ∀ id, op ≠ .setFair id false) (hr : runs w c l = some c') : Reached w q c' := by
  induction l generalizing c with
  | nil => cases hr; exact h
  | cons op l ih =>
    unfold runs at hr
    split at hr
    · rename_i ha
      exact ih (.step op h ha (fun k => hq k op List.mem_cons_self)) (fun k o ho => hq k o (List.mem_cons_of_mem _ ho)) hr
    · cases hr

abbrev ToyOp := Op (Nat × Bool) Unit

/-- Two WebTransport sessions, 0 and 4, with a group each, a session 8 of another kind, and streams 16 of
session 0, which is in group 1, and 20 of session 4, which is in none. -/
def twoOps : List ToyOp :=
  [.arrive 0 (10, false), .request 0 (some true), .arrive 4 (10, false), .request 4 (some true),
    .arrive 8 (10, false), .request 8 (some false), .activate 0, .activate 4, .activate 8,
    .createGroup 0, .createGroup 4, .createStream 0 16 (30, false) (some 1) true,
    .createStream 4 20 (30, false) none true, .write () 10]

def two : Conn (Nat × Bool) := (runs Sched.toy {} twoOps).getD {}

theorem two_reached {q : Prop} : Reached Sched.toy q two := by
  have hr : runs Sched.toy {} twoOps = some two := by
    unfold two
    have : (runs Sched.toy ({} : Conn (Nat × Bool)) twoOps).isSome = true := by decide +kernel
    cases h : runs Sched.toy ({} : Conn (Nat × Bool)) twoOps with
    | none => rw [h] at this; cases this
    | some c => rfl
  refine runs_reached .init twoOps ?_ hr
  intro _ op hop id
  unfold twoOps at hop
  simp only [List.mem_cons, List.not_mem_nil, or_false] at hop
  rcases hop with rfl | rfl | rfl | rfl | rfl | rfl | rfl | rfl | rfl | rfl | rfl | rfl | rfl | rfl <;> intro h <;> cases h

/-! ## C119 -/

/-- A stream is only scheduled in a group that was made for its own session. -/
theorem C119_own_group {w : Writer σ γ} (hw : WriterOk w) {q : Prop} {c : Conn σ} (h : Reached w q c) {id g : Nat}
    {hs : HStream} (hh : c.streams id = some hs) (hg : c.inGroup id = some g) :
    ∃ sid, hs.session = some sid ∧ g ∈ c.groupsOf sid := by
  have hi := h.inv hw
  obtain ⟨x, hx, hxg⟩ := Option.bind_eq_some_iff.mp hg
  rcases hi.below id hs x hh hx with e | e
  · rw [hxg] at e; cases e
  · obtain ⟨sid, s, h1, h2, h3⟩ := hi.own id hs g hh (e ▸ hxg)
    refine ⟨sid, h1, ?_⟩
    unfold Conn.groupsOf
    rw [h2]
    exact h3

example : two.inGroup 16 = some 1 ∧ two.streams 16 = some { session := some 0, group := some 1 } ∧
    two.groupsOf 0 = [1] ∧ two.groupsOf 4 = [2] := by decide +kernel

/-- No group belongs to two sessions, and sessions of other kinds have none. -/
theorem C119_groups_distinct {w : Writer σ γ} (hw : WriterOk w) {q : Prop} {c : Conn σ} (h : Reached w q c)
    {sid sid' g : Nat} (hg : g ∈ c.groupsOf sid) (hg' : g ∈ c.groupsOf sid') :
    sid = sid' ∧ ∃ s, c.sessions sid = some s ∧ s.wt = true := by
  have hi := h.inv hw
  unfold Conn.groupsOf at hg hg'
  split at hg
  · rename_i s hs
    split at hg'
    · rename_i s' hs'
      refine ⟨hi.distinct sid sid' s s' g hs hs' hg hg', s, hs, ?_⟩
      cases hwt : s.wt with
      | true => rfl
      | false =>
        rw [hi.other sid s hs hwt] at hg
        cases hg
    · cases hg'
  · cases hg

/-- A group is made for exactly the WebTransport sessions that are open, and it is new: no session has it,
and no stream of HTTP/3 is in it. -/
theorem C119_new_group {w : Writer σ γ} (hw : WriterOk w) {q : Prop} {c : Conn σ} (h : Reached w q c)
    (hb : c.gen + 1 < 2 ^ 64) (sid : Nat) :
    ((∃ g, (c.createGroup sid).2 = .ok g) ↔ ∃ s, c.sessions sid = some s ∧ s.listed = true ∧ s.wt = true) ∧
    ∀ g, (c.createGroup sid).2 = .ok g →
      (c.createGroup sid).1.groupsOf sid = g :: c.groupsOf sid ∧
      (∀ j, j ≠ sid → (c.createGroup sid).1.groupsOf j = c.groupsOf j) ∧
      (∀ j, g ∉ c.groupsOf j) ∧ ∀ id hs, c.streams id = some hs → c.inGroup id ≠ some g := by
  have hi := h.inv hw
  have hnew : ∀ j, c.gen + 1 ∉ c.groupsOf j := by
    intro j hj
    unfold Conn.groupsOf at hj
    split at hj
    · rename_i s hs
      have := (hi.range j s _ hs hj).2
      omega
    · cases hj
  refine ⟨⟨?_, ?_⟩, ?_⟩
  · rintro ⟨g, hg⟩
    unfold Conn.createGroup Conn.register at hg
    rw [if_neg (by omega)] at hg
    dsimp only at hg
    split at hg
    · cases hg
    · rename_i s hs
      split at hg
      · cases hg
      · rename_i hl
        refine ⟨s, hs, ?_, ?_⟩
        · cases e : s.listed with
          | true => rfl
          | false => exact absurd (Or.inl e) hl
        · cases e : s.wt with
          | true => rfl
          | false => exact absurd (Or.inr e) hl
  · rintro ⟨s, hs, hl, hwt⟩
    refine ⟨c.gen + 1, ?_⟩
    unfold Conn.createGroup Conn.register
    rw [if_neg (by omega)]
    dsimp only
    rw [hs]
    dsimp only
    rw [if_neg (by rw [hl, hwt]; simp), if_neg]
    intro hm
    have := (hi.range sid s _ hs hm).2
    omega
  · intro g hg
    rcases createGroup_cases hi sid with ⟨_, e⟩ | ⟨e', _, e⟩ | ⟨s, hs, hwt, e⟩
    · rw [e] at hg; cases hg
    · rw [e] at hg; cases hg
    · rw [e] at hg ⊢
      cases hg
      refine ⟨?_, ?_, hnew, ?_⟩
      · unfold Conn.groupsOf
        dsimp only
        rw [put_same, hs]
      · intro j hj
        unfold Conn.groupsOf
        dsimp only
        rw [put_other _ _ hj]
      · intro id hs' hh hgr
        obtain ⟨sid', _, h2⟩ := C119_own_group hw h hh hgr
        exact hnew sid' h2

example : (two.createGroup 0).2 = .ok 3 ∧ (two.createGroup 8).2 = .error .invalidStreamId ∧
    (two.createGroup 0).1.groupsOf 0 = [3, 1] := by decide +kernel

/-- A stream that is made with a group is scheduled in it, and a group that is set or cleared is the one
in force; other streams stay where they were. -/
theorem C119_in_force {w : Writer σ γ} (hw : WriterOk w) {q : Prop} {c c' : Conn σ} (h : Reached w q c) (id : Nat)
    (g : Option Nat) :
    (∀ sid st room, (Op.createStream sid id st g room : Op σ γ).Allowed c →
      c.createStream sid id st g room = (c', none) →
      c'.inGroup id = g ∧ c'.streams id = some { session := some sid, group := g } ∧
      ∀ j, j ≠ id → c'.inGroup j = c.inGroup j) ∧
    (c.setGroup id g = (c', none) → c'.inGroup id = g ∧ (c'.streams id).map (·.group) = some g ∧
      ∀ j, j ≠ id → c'.inGroup j = c.inGroup j) := by
  have hi := h.inv hw
  constructor
  · intro sid st room ha hc
    unfold Conn.createStream at hc
    split at hc
    · cases hc
    · split at hc
      · cases hc
      · split at hc
        · cases hc
        · rename_i hno
          obtain ⟨hg0, _⟩ := notOwn_known hi hno
          split at hc
          · cases hc
          · obtain ⟨s', k1, k2, k3⟩ := prepare_spec hi.ok ha.2 st g hg0
            rw [k1] at hc
            unfold Conn.opened at hc
            dsimp only at hc
            split at hc
            · cases hc
            · cases hc
              refine ⟨?_, put_same _ _ _, ?_⟩
              · unfold Conn.inGroup
                dsimp only
                rw [k3, if_pos rfl]
                rfl
              · intro j hj
                unfold Conn.inGroup
                dsimp only
                rw [k3, if_neg hj]
  · intro hc
    unfold Conn.setGroup at hc
    split at hc
    · cases hc
    · split at hc
      · cases hc
      · split at hc
        · cases hc
        · rcases Sched.setSendGroup_spec hi.ok id g with ⟨s', k1, k2, x, k3, k4, _⟩ | ⟨k1, _⟩ | ⟨k1, _⟩
          · rw [k1] at hc
            cases hc
            refine ⟨?_, ?_, ?_⟩
            · unfold Conn.inGroup
              dsimp only
              rw [k4, Sched.imFind_imSet, if_pos rfl, k3]
              rfl
            · dsimp only
              rw [put_same]
              rfl
            · intro j hj
              unfold Conn.inGroup
              dsimp only
              rw [k4, Sched.imFind_imSet, if_neg hj]
          · rw [k1] at hc; cases hc
          · rw [k1] at hc; cases hc

example : (two.setGroup 20 (some 2)).2 = none ∧ (two.setGroup 20 (some 2)).1.inGroup 20 = some 2 ∧
    (two.setGroup 16 none).2 = none ∧ (two.setGroup 16 none).1.inGroup 16 = none ∧
    (two.createStream 4 24 (5, false) (some 2) true).1.inGroup 24 = some 2 := by decide +kernel

/-- Only setting its group, and making it unfair, change the group of a stream that the transport has. -/
theorem C119_kept {w : Writer σ γ} (hw : WriterOk w) {q : Prop} {c : Conn σ} (h : Reached w q c) (op : Op σ γ)
    (ha : op.Allowed c) {id : Nat} (h1 : ∀ g, op ≠ .setGroup id g) (h2 : op ≠ .setFair id false)
    (hn : imFind c.sched.map id ≠ none) (hn' : imFind (c.step w op).1.sched.map id ≠ none) :
    (c.step w op).1.inGroup id = c.inGroup id := by
  have hf := step_fine hw (h.inv hw) op ha
  have hk : op.keeps id := by
    cases op with
    | setGroup j g => intro e; subst e; exact h1 g rfl
    | setFair j b => intro hb e; subst hb; subst e; exact h2 rfl
    | _ => trivial
  unfold Conn.inGroup
  cases e : imFind c.sched.map id with
  | none => exact absurd e hn
  | some x =>
    cases e' : imFind (c.step w op).1.sched.map id with
    | none => exact absurd e' hn'
    | some x' => exact hf.kept id hk x x' e e'

example : ((two.step Sched.toy (.write () 10)).1.step Sched.toy (.setFair 16 true)).1.inGroup 16 = some 1 := by decide +kernel

/-- Setting a group is refused only if HTTP/3 or the transport does not have the stream, if it is not one
of a session, if the group is not one of that session, or if the stream is not fair; and then the
transport schedules as before. -/
theorem C119_refused {w : Writer σ γ} (hw : WriterOk w) {q : Prop} {c : Conn σ} (h : Reached w q c) (id : Nat)
    (g : Option Nat) :
    (∀ e, (c.setGroup id g).2 = some e → (c.setGroup id g).1.sched = c.sched) ∧
    ((c.setGroup id g).2 = none ↔ ∃ hs sid x, c.streams id = some hs ∧ hs.session = some sid ∧
      (∀ n, g = some n → n ∈ c.groupsOf sid) ∧ imFind c.sched.map id = some x ∧ (g ≠ none → x.fair = true)) := by
  have hi := h.inv hw
  have hown : ∀ sid, c.notOwn sid g = false ↔ ∀ n, g = some n → n ∈ c.groupsOf sid := by
    intro sid
    cases g with
    | none => exact ⟨fun _ n hn => (by cases hn), fun _ => rfl⟩
    | some n =>
      unfold Conn.notOwn Conn.known Conn.groupsOf
      cases c.sessions sid with
      | none => simp
      | some s => simp
  unfold Conn.setGroup
  cases hh : c.streams id with
  | none => exact ⟨fun _ _ => rfl, ⟨fun k => (by cases k), fun ⟨_, _, _, k, _⟩ => (by cases k)⟩⟩
  | some hs =>
    dsimp only
    cases hsid : hs.session with
    | none =>
      refine ⟨fun _ _ => rfl, ⟨fun k => (by cases k), ?_⟩⟩
      rintro ⟨hs', sid, _, k, k', _⟩
      cases k
      rw [hsid] at k'; cases k'
    | some sid =>
      dsimp only
      cases hno : c.notOwn sid g with
      | true =>
        refine ⟨fun _ _ => rfl, ⟨fun k => (by cases k), ?_⟩⟩
        rintro ⟨hs', sid', _, k, k', k2, _⟩
        cases k
        rw [hsid] at k'; cases k'
        rw [(hown sid).mpr k2] at hno; cases hno
      | false =>
        rw [if_neg (by simp)]
        have hown' := (hown sid).mp hno
        rcases Sched.setSendGroup_spec hi.ok id g with ⟨s', k1, k2, x, k3, k4, _, _, k5⟩ | ⟨k1, k2⟩ | ⟨k1, k2⟩
        · rw [k1]
          refine ⟨fun _ k => (by cases k), ⟨fun _ => ⟨hs, sid, x, rfl, hsid, hown', k3, fun k => k5 ?_⟩, fun _ => rfl⟩⟩
          cases g with
          | none => exact absurd rfl k
          | some _ => rfl
        · rw [k1]
          refine ⟨fun _ _ => rfl, ⟨fun k => (by cases k), ?_⟩⟩
          rintro ⟨_, _, x, _, _, _, k, _⟩
          rw [k2] at k; cases k
        · rw [k1]
          refine ⟨fun _ _ => rfl, ⟨fun k => (by cases k), ?_⟩⟩
          rintro ⟨_, _, x, _, _, _, k, kf⟩
          rcases k2 with k2 | ⟨y, k2, k3, k4⟩
          · exact absurd k2 (notOwn_known hi (by rw [hno]; simp)).1
          · rw [k2] at k; cases k
            rw [kf (by rintro rfl; cases k4)] at k3
            cases k3

example : (two.setGroup 20 (some 1)).2 = some .invalidState ∧ (two.setGroup 0 (some 1)).2 = some .unavailable ∧
    (two.setGroup 24 none).2 = some .invalidStreamId := by decide +kernel

/-- If no stream was made unfair, the group that HTTP/3 records for a stream is the one in which the
transport schedules it, and a stream of a session can always join its groups.  This is not so in general:
see `C119_lost_by_fairness` and `C119_unfair_recorded`. -/
theorem C119_agree_partial {w : Writer σ γ} (hw : WriterOk w) {c : Conn σ} (h : Reached w True c) {id sid : Nat}
    {hs : HStream} (hh : c.streams id = some hs) (hsid : hs.session = some sid) (hx : imFind c.sched.map id ≠ none) :
    c.inGroup id = hs.group ∧ ∀ g ∈ c.groupsOf sid, (c.setGroup id (some g)).2 = none := by
  cases e : imFind c.sched.map id with
  | none => exact absurd e hx
  | some x =>
    obtain ⟨h1, h2⟩ := h.fair hw trivial id hs x hh (by rw [hsid]; simp) e
    refine ⟨?_, ?_⟩
    · unfold Conn.inGroup
      rw [e]
      exact h2
    · intro g hg
      refine ((C119_refused hw h id (some g)).2).mpr ⟨hs, sid, x, hh, hsid, ?_, e, fun _ => h1⟩
      intro n hn
      cases hn
      exact hg

example : Reached Sched.toy True two ∧ two.inGroup 16 = some 1 ∧ (two.streams 16).map (·.group) = some (some 1) :=
  ⟨two_reached, by decide +kernel, by decide +kernel⟩

/-- Nothing panics before 2^64 groups were made. -/
theorem C119_no_panic {w : Writer σ γ} (hw : WriterOk w) {q : Prop} {c : Conn σ} (h : Reached w q c) (op : Op σ γ)
    (ha : op.Allowed c) (hb : c.gen + 1 < 2 ^ 64) : (c.step w op).2 ≠ some .panic :=
  (step_fine hw (h.inv hw) op ha).panic hb

example : two.gen = 2 := by decide +kernel

/-- A stream that is made unfair and then fair again is not in a group any more, though no error is
returned and HTTP/3 records the group it had. -/
theorem C119_lost_by_fairness {w : Writer σ γ} (hw : WriterOk w) {q : Prop} {c : Conn σ} (h : Reached w q c) {id : Nat}
    (hn : imFind c.sched.map id ≠ none) :
    (c.setFair id false).2 = none ∧ ((c.setFair id false).1.setFair id true).2 = none ∧
      ((c.setFair id false).1.setFair id true).1.inGroup id = none ∧
      ((c.setFair id false).1.setFair id true).1.streams = c.streams := by
  have hi := h.inv hw
  unfold Conn.setFair
  rcases Sched.setFairness_spec hi.ok id false with ⟨s', k1, k2, x, k3, k4, _⟩ | ⟨_, k⟩
  · rw [k1]
    have e : imFind s'.map id = some { x with fair := false, group := none } := by
      rw [k4, Sched.imFind_imSet, if_pos rfl, k3]
      rfl
    show _ ∧ (Conn.take _ (s'.setFairness id true)).2 = none ∧ _
    rcases Sched.setFairness_spec k2 id true with ⟨s2, m1, m2, y, m3, m4, _⟩ | ⟨_, m⟩
    · show _ ∧ _ ∧ (Conn.take _ (s'.setFairness id true)).1.inGroup id = none ∧ (Conn.take _ (s'.setFairness id true)).1.streams = _
      rw [m1]
      refine ⟨rfl, rfl, ?_, rfl⟩
      show (imFind s2.map id).bind (·.group) = none
      rw [m4, Sched.imFind_imSet, if_pos rfl, m3]
      rw [e] at m3
      obtain rfl := Option.some.inj m3
      rfl
    · rw [e] at m; cases m
  · exact absurd k hn

example : two.inGroup 16 = some 1 ∧ ((two.setFair 16 false).1.setFair 16 true).1.inGroup 16 = none ∧
    (((two.setFair 16 false).1.setFair 16 true).1.streams 16).map (·.group) = some (some 1) := by decide +kernel

/-- A group that is set for a stream that is not fair is refused as if the stream did not exist, but
HTTP/3 records it. -/
theorem C119_unfair_recorded : ∃ c : Conn (Nat × Bool), Reached Sched.toy False c ∧ imFind c.sched.map 20 ≠ none ∧
    c.streams 20 = some { session := some 4 } ∧ 2 ∈ c.groupsOf 4 ∧
    (c.setGroup 20 (some 2)).2 = some .invalidStreamId ∧ (c.setGroup 20 (some 2)).1.inGroup 20 = none ∧
    (c.setGroup 20 (some 2)).1.streams 20 = some { session := some 4, group := some 2 } :=
  ⟨(two.step Sched.toy (.setFair 20 false)).1, .step _ two_reached trivial (fun h => h.elim), by decide +kernel, by decide +kernel,
    by decide +kernel, by decide +kernel, by decide +kernel, by decide +kernel⟩

/-- The streams of WebTransport that are asked for on a session of another kind. -/
def asks (sid : Nat) (st : σ) : List Nat → Conn σ → Conn σ
  | [], c => c
  | id :: l, c => asks sid st l (c.createStream sid id st none true).1

/-- A WebTransport stream that is asked for on a session of another kind is opened in the transport before
the call fails.  It stays: `n` such calls leave `n` streams that HTTP/3 does not know. -/
theorem C119_leaks_streams {w : Writer σ γ} (hw : WriterOk w) {q : Prop} {c : Conn σ} (h : Reached w q c) {sid : Nat}
    {s : Session} (hs : c.sessions sid = some s) (hl : s.listed = true) (ha : s.active = true) (hwt : s.wt = false)
    (st : σ) (l : List Nat) (hd : l.Nodup)
    (hf : ∀ id ∈ l, c.used id = false ∧ imFind c.sched.map id = none) :
    (∀ id ∈ l, (c.createStream sid id st none true).2 = some .invalidStreamId) ∧
    (∀ id ∈ l, imFind (asks sid st l c).sched.map id = some { fair := true, st }) ∧ (asks sid st l c).streams = c.streams := by
  have key : ∀ {c : Conn σ}, Reached w q c → c.sessions sid = some s → ∀ id, imFind c.sched.map id = none →
      ∃ s', c.createStream sid id st none true = ({ c with sched := s' }, some .invalidStreamId) ∧
        ∀ j, imFind s'.map j = if j = id then some { fair := true, st } else imFind c.sched.map j := by
    intro c h hs id hn
    obtain ⟨s', k1, _, k3⟩ := prepare_spec (h.inv hw).ok hn st none (by simp)
    refine ⟨s', ?_, k3⟩
    unfold Conn.createStream
    rw [hs]
    dsimp only
    rw [if_neg (by rw [hl, ha]; simp), if_neg (by unfold Conn.notOwn; simp), if_neg (by simp), k1, hwt]
    rfl
  refine ⟨fun id hid => ?_, ?_⟩
  · obtain ⟨s', k, _⟩ := key h hs id (hf id hid).2
    rw [k]
  · have main : ∀ l : List Nat, ∀ c : Conn σ, Reached w q c → c.sessions sid = some s → l.Nodup →
        (∀ id ∈ l, c.used id = false ∧ imFind c.sched.map id = none) →
        (∀ id ∈ l, imFind (asks sid st l c).sched.map id = some { fair := true, st }) ∧
        (∀ id, id ∉ l → imFind (asks sid st l c).sched.map id = imFind c.sched.map id) ∧
        (asks sid st l c).streams = c.streams := by
      intro l
      induction l with
      | nil => intro c _ _ _ _; exact ⟨fun _ k => (by cases k), fun _ _ => rfl, rfl⟩
      | cons id l ih =>
        intro c h hs hd hf
        obtain ⟨hd1, hd2⟩ := List.nodup_cons.mp hd
        obtain ⟨s', k, k3⟩ := key h hs id (hf id List.mem_cons_self).2
        have hr : Reached w q ({ c with sched := s' } : Conn σ) := by
          have := Reached.step (w := w) (q := q) (.createStream sid id st none true) h (hf id List.mem_cons_self)
            (fun _ j e => by cases e)
          have e : (c.step w (.createStream sid id st none true)).1 = { c with sched := s' } := by
            show (c.createStream sid id st none true).1 = _
            rw [k]
          rw [e] at this
          exact this
        obtain ⟨i1, i2, i3⟩ := ih { c with sched := s' } hr hs hd2 (by
          intro j hj
          obtain ⟨a1, a2⟩ := hf j (List.mem_cons_of_mem _ hj)
          refine ⟨a1, ?_⟩
          show imFind s'.map j = none
          rw [k3, if_neg (by rintro rfl; exact hd1 hj)]
          exact a2)
        have e : asks sid st (id :: l) c = asks sid st l { c with sched := s' } := by
          show asks sid st l (c.createStream sid id st none true).1 = _
          rw [k]
        rw [e]
        refine ⟨?_, ?_, i3⟩
        · intro j hj
          by_cases hjl : j ∈ l
          · exact i1 j hjl
          · rcases List.mem_cons.mp hj with rfl | hj
            · rw [i2 j hjl]
              show imFind s'.map j = _
              rw [k3, if_pos rfl]
            · exact absurd hj hjl
        · intro j hj
          rw [i2 j (fun k => hj (List.mem_cons_of_mem _ k))]
          show imFind s'.map j = _
          rw [k3, if_neg (by rintro rfl; exact hj List.mem_cons_self)]
    obtain ⟨m1, _, m3⟩ := main l c h hs hd hf
    exact ⟨m1, m3⟩

example : two.sessions 8 = some { wt := false, active := true } ∧
    (∀ id ∈ [24, 28, 32], two.used id = false ∧ imFind two.sched.map id = none) ∧
    (asks 8 (0, false) [24, 28, 32] two).sched.map.length = two.sched.map.length + 3 := by decide +kernel

end Neqo.Groups
