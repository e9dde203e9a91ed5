import Verif.Frames.Props

/-!
# QUIC datagrams: `neqo-transport/src/quic_datagrams.rs`
-/
namespace Neqo.Dg
open Neqo.Codec (Bytes)

/-- `QuicDatagram` (quic_datagrams.rs:44-47) with `DatagramTracking` (quic_datagrams.rs:33-36). -/
structure Item where
  data : Bytes
  id : Option Nat
  deriving Repr, DecidableEq

/-- `OutgoingDatagramOutcome` (events.rs:23-28), those that come from the queue. -/
inductive Outcome where
  | droppedTooBig | droppedQueueFull
  deriving Repr, DecidableEq

/-- The events about datagrams (events.rs:75-80). -/
inductive Ev where
  | outcome (id : Nat) (o : Outcome)
  | received (data : Bytes)
  deriving Repr, DecidableEq

/-- `struct QuicDatagrams` (quic_datagrams.rs:62-71), with the events that it adds. -/
structure Q where
  localSize : Nat
  remoteSize : Nat
  maxQueued : Nat
  queue : List Item
  events : List Ev
  deriving Repr, DecidableEq

/-- `QuicDatagrams::new` (quic_datagrams.rs:75-87). -/
def Q.new (localSize maxQueued : Nat) : Q := ⟨localSize, 0, maxQueued, [], []⟩

/-- `QuicDatagrams::set_remote_datagram_size` (quic_datagrams.rs:93-95). -/
def Q.setRemote (q : Q) (v : Nat) : Q := { q with remoteSize := min v 65535 }

/-- `ConnectionEvents::datagram_outcome` (events.rs:188-198). -/
def outcome (i : Item) (o : Outcome) : List Ev :=
  match i.id with
  | none => []
  | some n => [.outcome n o]

/-- What becomes of a datagram that was accepted. -/
inductive Fate where
  | written (wire : Bytes)
  | tooBig
  | queueFull
  deriving Repr, DecidableEq

/-- `QuicDatagrams::write_frames` (quic_datagrams.rs:100-144): `rem` is the room in the packet,
`tokens` the number of tokens for what is already in it.  Gives what is left in the queue, and
what became of the others. -/
def write : List Item → (rem tokens : Nat) → Except Frm.Err (List Item × List (Item × Fate))
  | [], _, _ => .ok ([], [])
  | d :: ds, rem, tokens =>
    match Frm.writeDatagram rem d.data with
    | .error e => .error e
    | .ok (some (w, fill)) =>
      match write ds (if fill then 0 else rem - w.length) (tokens + 1) with
      | .error e => .error e
      | .ok (q, l) => .ok (q, (d, .written w) :: l)
    | .ok none =>
      if tokens = 0 then
        match write ds rem 0 with
        | .error e => .error e
        | .ok (q, l) => .ok (q, (d, .tooBig) :: l)
      else .ok (d :: ds, [])

/-- The events for datagrams that do not fit (quic_datagrams.rs:134-136). -/
def fateEvents : List (Item × Fate) → List Ev
  | [] => []
  | (i, .tooBig) :: l => outcome i .droppedTooBig ++ fateEvents l
  | (i, .queueFull) :: l => outcome i .droppedQueueFull ++ fateEvents l
  | (_, .written _) :: l => fateEvents l

def Q.write (q : Q) (rem tokens : Nat) : Except Frm.Err (Q × List (Item × Fate)) :=
  match Dg.write q.queue rem tokens with
  | .error e => .error e
  | .ok (ds, l) => .ok ({ q with queue := ds, events := q.events ++ fateEvents l }, l)

/-- What `add_datagram` says. -/
inductive Added where
  | ok | tooMuchData | internal
  deriving Repr, DecidableEq

/-- `QuicDatagrams::add_datagram` (quic_datagrams.rs:155-182). -/
def Q.add (q : Q) (i : Item) : Q × Added × List (Item × Fate) :=
  if i.data.length > q.remoteSize then (q, .tooMuchData, [])
  else if q.queue.length = q.maxQueued then
    match q.queue with
    | [] => (q, .internal, [])
    | d :: ds =>
      ({ q with queue := ds ++ [i], events := q.events ++ outcome d .droppedQueueFull }, .ok, [(d, .queueFull)])
  else ({ q with queue := q.queue ++ [i] }, .ok, [])

/-- `QuicDatagrams::handle_datagram` (quic_datagrams.rs:184-193); `none` is
`Error::ProtocolViolation`. -/
def Q.handle (q : Q) (data : Bytes) : Option Q :=
  if q.localSize = 0 ∨ q.localSize < data.length then none
  else some { q with events := q.events ++ [.received data] }

/-! ## Specification -/

namespace Spec

/-- What happens to the datagrams of a connection. -/
inductive Op where
  /-- The peer's transport parameter max_datagram_frame_size. -/
  | remote (size : Nat)
  | send (i : Item)
  /-- A packet is made, with room for `rem` bytes and something in it or nothing. -/
  | packet (rem tokens : Nat)
  /-- A DATAGRAM frame arrives. -/
  | arrive (data : Bytes)
  deriving Repr, DecidableEq

/-- What is observed: the datagrams accepted from the application, what became of them, and
those of the peer that were accepted. -/
structure Obs where
  accepted : List Item := []
  fates : List (Item × Fate) := []
  arrived : List Bytes := []
  deriving Repr, DecidableEq

def step (q : Q) (o : Obs) : Op → Except Frm.Err (Q × Obs)
  | .remote n => .ok (q.setRemote n, o)
  | .send i =>
    match q.add i with
    | (q, .ok, l) => .ok (q, { o with accepted := o.accepted ++ [i], fates := o.fates ++ l })
    | (q, _, l) => .ok (q, { o with fates := o.fates ++ l })
  | .packet rem tokens =>
    match q.write rem tokens with
    | .error e => .error e
    | .ok (q, l) => .ok (q, { o with fates := o.fates ++ l })
  | .arrive data =>
    match q.handle data with
    | none => .ok (q, o)
    | some q => .ok (q, { o with arrived := o.arrived ++ [data] })

def run (q : Q) (o : Obs) : List Op → Except Frm.Err (Q × Obs)
  | [] => .ok (q, o)
  | op :: ops =>
    match step q o op with
    | .error e => .error e
    | .ok (q, o) => run q o ops

/-- The bytes of the frames in a packet. -/
def bytes (l : List (Item × Fate)) : Bytes :=
  (l.map fun x => match x.2 with | .written w => w | _ => []).flatten

/-- The outcomes that the application is told: one for each datagram dropped that it gave a
number. -/
def told (l : List (Item × Fate)) : List (Nat × Outcome) :=
  l.filterMap fun x =>
    match x with
    | (⟨_, some n⟩, .tooBig) => some (n, .droppedTooBig)
    | (⟨_, some n⟩, .queueFull) => some (n, .droppedQueueFull)
    | _ => none

def outcomes (es : List Ev) : List (Nat × Outcome) :=
  es.filterMap fun | .outcome n o => some (n, o) | .received _ => none

def received (es : List Ev) : List Bytes :=
  es.filterMap fun | .outcome .. => none | .received d => some d

end Spec
open Spec

/-! ## Proofs -/

structure Inv (q : Q) (o : Obs) : Prop where
  order : o.accepted = o.fates.map Prod.fst ++ q.queue
  limit : q.queue.length ≤ q.maxQueued
  small : ∀ i ∈ q.queue, i.data.length ≤ 65535
  remote : q.remoteSize ≤ 65535
  told : outcomes q.events = told o.fates
  arrived : received q.events = o.arrived

theorem write_ok (ds : List Item) (h : ∀ i ∈ ds, i.data.length ≤ 65535) : ∀ rem tokens,
    ∃ q l, write ds rem tokens = .ok (q, l) ∧ ds = l.map Prod.fst ++ q := by
  induction ds with
  | nil => intro _ _; exact ⟨[], [], rfl, rfl⟩
  | cons d ds ih =>
    intro rem tokens
    have hd := h d (List.mem_cons_self ..)
    obtain ⟨r, hr, _⟩ := Frm.datagram_ok (rem := rem) (dat := d.data) (by omega)
    have ih := ih (fun i hi => h i (List.mem_cons_of_mem _ hi))
    unfold write
    rw [hr]
    cases r with
    | some x =>
      obtain ⟨w, fill⟩ := x
      obtain ⟨q, l, h1, h2⟩ := ih (if fill then 0 else rem - w.length) (tokens + 1)
      refine ⟨q, (d, .written w) :: l, ?_, by rw [h2]; rfl⟩
      simp only [h1]
    | none =>
      dsimp only
      by_cases ht : tokens = 0
      · rw [if_pos ht]
        obtain ⟨q, l, h1, h2⟩ := ih rem 0
        exact ⟨q, (d, .tooBig) :: l, by rw [h1], by rw [h2]; rfl⟩
      · rw [if_neg ht]
        exact ⟨_, [], rfl, rfl⟩

theorem outcomes_append (a b : List Ev) : outcomes (a ++ b) = outcomes a ++ outcomes b := by simp [outcomes]
theorem received_append (a b : List Ev) : received (a ++ b) = received a ++ received b := by simp [received]
theorem told_append (a b : List (Item × Fate)) : told (a ++ b) = told a ++ told b := by simp [Spec.told]

theorem fateEvents_told (l : List (Item × Fate)) : outcomes (fateEvents l) = told l ∧ received (fateEvents l) = [] := by
  induction l with
  | nil => exact ⟨rfl, rfl⟩
  | cons x l ih =>
    obtain ⟨⟨dat, id⟩, f⟩ := x
    cases f <;> cases id <;>
      simp [fateEvents, outcome, Spec.told, outcomes, received] at ih ⊢ <;> exact ih

theorem step_inv (q : Q) (o : Obs) (h : Inv q o) (op : Op) : ∃ q' o', step q o op = .ok (q', o') ∧ Inv q' o' ∧ q'.maxQueued = q.maxQueued ∧
    q'.localSize = q.localSize := by
  obtain ⟨h1, h2, h3, h4, h5, h6⟩ := h
  cases op with
  | remote n => exact ⟨_, _, rfl, ⟨h1, h2, h3, Nat.min_le_right _ _, h5, h6⟩, rfl, rfl⟩
  | send i =>
    unfold step Q.add
    dsimp only
    by_cases hs : i.data.length > q.remoteSize
    · rw [if_pos hs]
      exact ⟨_, _, rfl, ⟨by simpa using h1, h2, h3, h4, by simpa using h5, h6⟩, rfl, rfl⟩
    · rw [if_neg hs]
      by_cases hf : q.queue.length = q.maxQueued
      · rw [if_pos hf]
        cases hq : q.queue with
        | nil => exact ⟨_, _, rfl, ⟨by simpa using h1, h2, h3, h4, by simpa using h5, h6⟩, rfl, rfl⟩
        | cons d ds =>
          rw [hq] at h1 h3 hf
          have he : outcomes (outcome d .droppedQueueFull) = told [(d, .queueFull)] ∧ received (outcome d .droppedQueueFull) = [] := by
            obtain ⟨dat, id⟩ := d
            cases id <;> exact ⟨rfl, rfl⟩
          refine ⟨_, _, rfl, ⟨?_, ?_, ?_, h4, ?_, ?_⟩, rfl, rfl⟩
          · simp [h1]
          · simp only [List.length_append, List.length_cons, List.length_nil] at hf ⊢; omega
          · intro x hx
            simp only [List.mem_append, List.mem_singleton] at hx
            rcases hx with hx | rfl
            · exact h3 x (List.mem_cons_of_mem _ hx)
            · omega
          · dsimp only; rw [outcomes_append, told_append, h5, he.1]
          · dsimp only; rw [received_append, h6, he.2, List.append_nil]
      · rw [if_neg hf]
        refine ⟨_, _, rfl, ⟨by simp [h1], ?_, ?_, h4, by simpa using h5, h6⟩, rfl, rfl⟩
        · simp only [List.length_append, List.length_cons, List.length_nil]; omega
        · intro x hx
          simp only [List.mem_append, List.mem_singleton] at hx
          rcases hx with hx | rfl
          · exact h3 x hx
          · omega
  | packet rem tokens =>
    obtain ⟨ds, l, hw, hl⟩ := write_ok q.queue h3 rem tokens
    unfold step Q.write
    dsimp only
    rw [hw]
    have he := fateEvents_told l
    refine ⟨_, _, rfl, ⟨?_, ?_, ?_, h4, ?_, ?_⟩, rfl, rfl⟩
    · dsimp only; rw [h1, hl]; simp
    · have := congrArg List.length hl
      simp only [List.length_append, List.length_map] at this
      dsimp only; omega
    · intro x hx
      exact h3 x (by rw [hl]; exact List.mem_append_right _ hx)
    · dsimp only; rw [outcomes_append, told_append, h5, he.1]
    · dsimp only; rw [received_append, h6, he.2, List.append_nil]
  | arrive data =>
    unfold step Q.handle
    dsimp only
    by_cases hc : q.localSize = 0 ∨ q.localSize < data.length
    · rw [if_pos hc]; exact ⟨_, _, rfl, ⟨h1, h2, h3, h4, h5, h6⟩, rfl, rfl⟩
    · rw [if_neg hc]
      refine ⟨_, _, rfl, ⟨h1, h2, h3, h4, ?_, ?_⟩, rfl, rfl⟩
      · dsimp only; rw [outcomes_append, h5]; simp [outcomes]
      · dsimp only; rw [received_append, h6]; simp [received]

theorem run_inv (ops : List Op) : ∀ (q : Q) (o : Obs), Inv q o → ∃ q' o', run q o ops = .ok (q', o') ∧ Inv q' o' ∧
    q'.maxQueued = q.maxQueued ∧ q'.localSize = q.localSize := by
  induction ops with
  | nil => intro q o h; exact ⟨q, o, rfl, h, rfl, rfl⟩
  | cons op ops ih =>
    intro q o h
    obtain ⟨q1, o1, e, h1, e1, e2⟩ := step_inv q o h op
    obtain ⟨q2, o2, e', h2, e3, e4⟩ := ih q1 o1 h1
    exact ⟨q2, o2, by unfold run; rw [e]; exact e', h2, e3.trans e1, e4.trans e2⟩

theorem inv_new (localSize maxQueued : Nat) : Inv (Q.new localSize maxQueued) {} :=
  ⟨rfl, Nat.zero_le _, by simp [Q.new], by simp [Q.new], rfl, rfl⟩

/-- Datagrams leave the queue in the order in which the application gave them, each of them
once: it is sent in a frame, or dropped because it does not fit or because there are too many
of them; never more than the configured number wait.  The application is told of each one
dropped if it gave it a number, and gets each datagram of the peer that was accepted, in order.
Nothing panics. -/
theorem C79_in_order (localSize maxQueued : Nat) (ops : List Op) :
    ∃ q o, run (Q.new localSize maxQueued) {} ops = .ok (q, o) ∧ o.accepted = o.fates.map Prod.fst ++ q.queue ∧
      q.queue.length ≤ maxQueued ∧ outcomes q.events = told o.fates ∧ received q.events = o.arrived := by
  obtain ⟨q, o, h, hi, h1, _⟩ := run_inv ops _ _ (inv_new localSize maxQueued)
  exact ⟨q, o, h, hi.order, by rw [show maxQueued = q.maxQueued from h1.symm]; exact hi.limit, hi.told, hi.arrived⟩

theorem write_spec (ds : List Item) (h : ∀ i ∈ ds, i.data.length ≤ 65535) : ∀ rem tokens q l,
    write ds rem tokens = .ok (q, l) →
    (bytes l).length ≤ rem ∧ (∀ i w, (i, .written w) ∈ l → ∃ fill, Frm.Wire (.datagram i.data fill) w) ∧
      (∀ i, (i, .queueFull) ∉ l) ∧
      (∀ i, (i, .tooBig) ∈ l → tokens = 0 ∧ ∀ w fill, Frm.Wire (.datagram i.data fill) w → rem < w.length) ∧
      (∀ i w, q.head? = some i → (tokens ≠ 0 ∨ ∃ j w', (j, .written w') ∈ l) ∧
        (∀ fill, Frm.Wire (.datagram i.data fill) w → rem < (bytes l).length + w.length ∨
          ∃ a j w', l = a ++ [(j, .written w')] ∧ Frm.Wire (.datagram j.data true) w')) := by
  induction ds with
  | nil => intro rem tokens q l hw; cases hw; simp [bytes]
  | cons d ds ih =>
    intro rem tokens q l hw
    have hd := h d (List.mem_cons_self ..)
    obtain ⟨r, hr, hr1, hr2⟩ := Frm.datagram_ok (rem := rem) (dat := d.data) (by omega)
    have ih := ih (fun i hi => h i (List.mem_cons_of_mem _ hi))
    unfold write at hw
    rw [hr] at hw
    cases r with
    | some x =>
      obtain ⟨w, fill⟩ := x
      dsimp only at hw
      obtain ⟨g1, g2⟩ := hr1 w fill rfl
      cases hn : write ds (if fill then 0 else rem - w.length) (tokens + 1) with
      | error e => rw [hn] at hw; cases hw
      | ok x =>
        obtain ⟨q', l'⟩ := x
        rw [hn] at hw
        cases hw
        obtain ⟨i1, i2, i3, i4, i5⟩ := ih _ _ _ _ hn
        have hb : bytes ((d, Fate.written w) :: l') = w ++ bytes l' := rfl
        refine ⟨?_, ?_, ?_, ?_, ?_⟩
        · rw [hb, List.length_append]
          cases fill with
          | true => rw [if_pos rfl] at i1; omega
          | false => rw [if_neg (by simp)] at i1; omega
        · intro i w' hm
          rw [List.mem_cons] at hm
          rcases hm with hm | hm
          · cases hm; exact ⟨fill, g1⟩
          · exact i2 i w' hm
        · intro i hm
          rw [List.mem_cons] at hm
          rcases hm with hm | hm
          · cases hm
          · exact i3 i hm
        · intro i hm
          rw [List.mem_cons] at hm
          rcases hm with hm | hm
          · cases hm
          · exact absurd (i4 i hm).1 (Nat.succ_ne_zero _)
        · intro i w' hq
          refine ⟨.inr ⟨d, w, List.mem_cons_self ..⟩, ?_⟩
          intro fill' hwire
          obtain ⟨_, k⟩ := i5 i w' hq
          rcases k fill' hwire with k | ⟨a, j, w2, k1, k2⟩
          · rw [hb, List.length_append]
            cases fill with
            | false => left; simp at k; omega
            | true =>
              -- the packet is full after this frame
              cases l' with
              | nil => exact .inr ⟨[], d, w, rfl, g1⟩
              | cons y l'' =>
                exfalso
                simp only [if_true] at i1 hn
                have hb0 : bytes (y :: l'') = [] := List.length_eq_zero_iff.mp (by omega)
                obtain ⟨j, f⟩ := y
                cases f with
                | written w3 =>
                  obtain ⟨f3, hf3⟩ := i2 j w3 (List.mem_cons_self ..)
                  have : w3 = [] := by
                    have : bytes ((j, Fate.written w3) :: l'') = w3 ++ bytes l'' := rfl
                    rw [this] at hb0
                    exact (List.append_eq_nil_iff.mp hb0).1
                  subst this
                  obtain ⟨t, b, ht, _, hw3⟩ := (Frm.wire_only (f := .datagram j.data f3) rfl rfl).mp hf3
                  have := List.length_pos_iff.mpr ht.1.ne_nil
                  have := congrArg List.length hw3
                  simp at this; omega
                | tooBig => exact absurd (i4 j (List.mem_cons_self ..)).1 (Nat.succ_ne_zero _)
                | queueFull => exact i3 j (List.mem_cons_self ..)
          · exact .inr ⟨(d, .written w) :: a, j, w2, by rw [k1]; rfl, k2⟩
    | none =>
      dsimp only at hw
      by_cases ht : tokens = 0
      · rw [if_pos ht] at hw
        cases hn : write ds rem 0 with
        | error e => rw [hn] at hw; cases hw
        | ok x =>
          obtain ⟨q', l'⟩ := x
          rw [hn] at hw
          cases hw
          obtain ⟨i1, i2, i3, i4, i5⟩ := ih _ _ _ _ hn
          have hb : bytes ((d, Fate.tooBig) :: l') = bytes l' := rfl
          refine ⟨by rw [hb]; exact i1, ?_, ?_, ?_, ?_⟩
          · intro i w' hm
            rw [List.mem_cons] at hm
            rcases hm with hm | hm
            · cases hm
            · exact i2 i w' hm
          · intro i hm
            rw [List.mem_cons] at hm
            rcases hm with hm | hm
            · cases hm
            · exact i3 i hm
          · intro i hm
            rw [List.mem_cons] at hm
            rcases hm with hm | hm
            · cases hm; exact ⟨ht, fun w fill => hr2 rfl w fill⟩
            · exact ⟨ht, (i4 i hm).2⟩
          · intro i w' hq
            obtain ⟨k1, k2⟩ := i5 i w' hq
            refine ⟨?_, ?_⟩
            · rcases k1 with k1 | ⟨j, w2, k1⟩
              · exact absurd rfl k1
              · exact .inr ⟨j, w2, List.mem_cons_of_mem _ k1⟩
            · intro fill hwire
              rw [hb]
              rcases k2 fill hwire with k | ⟨a, j, w2, k1, k2⟩
              · exact .inl k
              · exact .inr ⟨(d, .tooBig) :: a, j, w2, by rw [k1]; rfl, k2⟩
      · rw [if_neg ht] at hw
        cases hw
        refine ⟨Nat.zero_le _, by simp, by simp, by simp, ?_⟩
        intro i w' hq
        cases hq
        refine ⟨.inl ht, fun fill hwire => .inl ?_⟩
        have := hr2 rfl w' fill hwire
        simpa [bytes] using this

/-- What is put in a packet are DATAGRAM frames with the data as given, and they fit.  A
datagram is dropped as too big only if it was to be the first thing in a packet and no frame
for it fits.  One that stays does not fit next to what is in the packet, or the
frame before it goes to the end of the packet. -/
theorem C79_packets (localSize maxQueued : Nat) (ops : List Op) (q q' : Q) (o : Obs)
    (hr : run (Q.new localSize maxQueued) {} ops = .ok (q, o)) (rem tokens : Nat) (l : List (Item × Fate))
    (hw : q.write rem tokens = .ok (q', l)) :
    (bytes l).length ≤ rem ∧ (∀ i w, (i, .written w) ∈ l → ∃ fill, Frm.Wire (.datagram i.data fill) w) ∧
      (∀ i, (i, .queueFull) ∉ l) ∧
      (∀ i, (i, .tooBig) ∈ l → tokens = 0 ∧ ∀ w fill, Frm.Wire (.datagram i.data fill) w → rem < w.length) ∧
      (∀ i w, q'.queue.head? = some i → (tokens ≠ 0 ∨ ∃ j w', (j, .written w') ∈ l) ∧
        (∀ fill, Frm.Wire (.datagram i.data fill) w → rem < (bytes l).length + w.length ∨
          ∃ a j w', l = a ++ [(j, .written w')] ∧ Frm.Wire (.datagram j.data true) w')) := by
  obtain ⟨q0, o0, h, hi, _⟩ := run_inv ops _ _ (inv_new localSize maxQueued)
  rw [hr] at h
  cases h
  unfold Q.write at hw
  cases hn : write q.queue rem tokens with
  | error e => rw [hn] at hw; cases hw
  | ok x =>
    rw [hn] at hw
    cases hw
    exact write_spec _ hi.small _ _ _ _ hn

/-- A datagram is accepted if it is not longer than what the peer allows and at most 65535 bytes
long; the first one waiting is dropped for it if there are as many as may wait. -/
theorem C79_send_partial (localSize maxQueued : Nat) (hm : 1 ≤ maxQueued) (ops : List Op) (q : Q) (o : Obs)
    (hr : run (Q.new localSize maxQueued) {} ops = .ok (q, o)) (i : Item) :
    ((q.add i).2.1 = .ok ↔ i.data.length ≤ q.remoteSize) ∧ (q.add i).2.1 ≠ .internal ∧
      (∀ d f, (d, f) ∈ (q.add i).2.2 → f = .queueFull ∧ q.queue.head? = some d ∧ q.queue.length = maxQueued) := by
  obtain ⟨q0, o0, h, hi, hmax, _⟩ := run_inv ops _ _ (inv_new localSize maxQueued)
  rw [hr] at h
  cases h
  change q.maxQueued = maxQueued at hmax
  unfold Q.add
  by_cases hs : i.data.length > q.remoteSize
  · rw [if_pos hs]; simp; omega
  · rw [if_neg hs]
    by_cases hf : q.queue.length = q.maxQueued
    · rw [if_pos hf]
      cases hq : q.queue with
      | nil => rw [hq] at hf; simp at hf; omega
      | cons d ds =>
        rw [hq] at hf
        simp only [List.mem_singleton, List.head?_cons, hf, hmax, true_iff]
        refine ⟨by omega, by simp, ?_⟩
        intro a b hab
        cases hab
        exact ⟨rfl, rfl, trivial⟩
    · rw [if_neg hf]; simp; omega

/-- Whether a datagram of the peer is passed on: exactly if datagrams are enabled and it is not
longer than what was announced; otherwise the connection is closed. -/
theorem C79_receive_partial (q : Q) (data : Bytes) : (q.handle data).isSome ↔ q.localSize ≠ 0 ∧ data.length ≤ q.localSize := by
  unfold Q.handle
  by_cases h : q.localSize = 0 ∨ q.localSize < data.length
  · rw [if_pos h]; simp; omega
  · rw [if_neg h]; simp; omega

/-! ## The limit is for the frame -/

/-- The limit of the peer is for the whole frame (RFC 9221 §3), but only the data in it is compared
with it: for any limit there is a datagram that is accepted, and sent in a frame that is longer
than the peer allows, for which it has to close the connection. -/
theorem C79_frame_exceeds_limit (localSize maxQueued limit rem : Nat) (hl : limit ≤ 65535) (hm : 1 ≤ maxQueued) (hrem : limit < rem) :
    ∃ q o i w, run (Q.new localSize maxQueued) {} [.remote limit, .send i, .packet rem 0] = .ok (q, o) ∧
      o.fates = [(i, .written w)] ∧ limit < w.length := by
  obtain ⟨r, hr, hr1, hr2⟩ := Frm.datagram_ok (rem := rem) (dat := List.replicate limit 0) (by simp; omega)
  have hadd : (Q.setRemote (Q.new localSize maxQueued) limit).add ⟨List.replicate limit 0, none⟩ =
      ({ (Q.new localSize maxQueued) with remoteSize := min limit 65535, queue := [⟨List.replicate limit 0, none⟩] }, .ok, []) := by
    unfold Q.add
    rw [if_neg (by simp [Q.setRemote, Nat.min_eq_left hl]), if_neg (by simp [Q.setRemote, Q.new]; omega)]
    rfl
  cases r with
  | none =>
    exfalso
    unfold Frm.writeDatagram at hr
    rw [if_pos (by simp; omega)] at hr
    revert hr
    obtain ⟨l, _, l2, l3⟩ := Frm.evv_ok (b := List.replicate limit (0 : UInt8)) (by simp; omega)
    obtain ⟨e1, h1, _, _⟩ := Frm.typeBytes (.datagram true)
    obtain ⟨e2, h2, _, _⟩ := Frm.typeBytes (.datagram false)
    unfold Frm.lv
    rw [l2, l3, h1, h2]
    simp only [bind, Except.bind, pure, Except.pure]
    split <;> intro h <;> cases h
  | some x =>
    obtain ⟨w, fill⟩ := x
    obtain ⟨g1, g2⟩ := hr1 w fill rfl
    refine ⟨⟨localSize, min limit 65535, maxQueued, [], []⟩, ⟨[⟨List.replicate limit 0, none⟩],
      [(⟨List.replicate limit 0, none⟩, .written w)], []⟩, ⟨List.replicate limit 0, none⟩, w, ?_, rfl, ?_⟩
    rotate_left
    · obtain ⟨t, b, ht, hb, rfl⟩ := (Frm.wire_only (f := .datagram (List.replicate limit 0) fill) rfl rfl).mp g1
      have h1 : 1 ≤ t.length := List.length_pos_iff.mpr ht.1.ne_nil
      have h2 : limit ≤ b.length := by
        have hb := Frm.fields_one.mp hb
        cases fill with
        | true => rw [show b = List.replicate limit 0 from hb]; simp
        | false => obtain ⟨l, _, rfl⟩ := hb; rw [List.length_append]; simp
      rw [List.length_append]; omega
    · unfold run step
      dsimp only
      unfold run step
      dsimp only
      rw [hadd]
      dsimp only
      unfold run step Q.write write
      dsimp only
      rw [hr]
      rfl

/-- In the other direction too, a frame that is longer than what was announced is accepted. -/
theorem C79_longer_frame_accepted (maxQueued n : Nat) (h : 1 ≤ n) (data : Bytes) (hd : data.length = n) (w : Bytes)
    (fill : Bool) (hw : Frm.Wire (.datagram data fill) w) :
    n < w.length ∧ ((Q.new n maxQueued).handle data).isSome := by
  refine ⟨?_, (C79_receive_partial _ _).mpr ⟨by simp [Q.new]; omega, by simp [Q.new, hd]⟩⟩
  obtain ⟨t, b, ht, hb, rfl⟩ := (Frm.wire_only (f := .datagram data fill) rfl rfl).mp hw
  have h1 : 1 ≤ t.length := List.length_pos_iff.mpr ht.1.ne_nil
  have h2 : data.length ≤ b.length := by
    have hb := Frm.fields_one.mp hb
    cases fill with
    | true => rw [show b = data from hb]
    | false => obtain ⟨l, _, rfl⟩ := hb; rw [List.length_append]; omega
  rw [List.length_append]; omega

/-! ## Examples -/

/-- Three datagrams, of which the first is dropped for the third, the second sent, and the third
waits because something was in the packet; in the next packet it is too big. -/
example :
    run (Q.new 100 2) {} [.remote 10, .send ⟨[1], some 1⟩, .send ⟨[2, 2], some 2⟩, .send ⟨[3, 3, 3, 3], some 3⟩, .packet 8 0,
      .packet 4 0, .arrive [9]] =
    .ok (⟨100, 10, 2, [], [.outcome 1 .droppedQueueFull, .outcome 3 .droppedTooBig, .received [9]]⟩,
      ⟨[⟨[1], some 1⟩, ⟨[2, 2], some 2⟩, ⟨[3, 3, 3, 3], some 3⟩],
       [(⟨[1], some 1⟩, .queueFull), (⟨[2, 2], some 2⟩, .written [0x31, 2, 2, 2]), (⟨[3, 3, 3, 3], some 3⟩, .tooBig)], [[9]]⟩) := by
  decide +kernel

end Neqo.Dg
