import Verif.Lib.Basic
import Verif.Sender.Dgram

/-!
# Who is served first in a packet

`write_appdata_frames` asks one source of frames after the other.  The sources are abstract here; what is
asked of them is in `Source`.
-/
namespace Neqo.Prio

/-! ## The model -/

/-- The sources of frames of a 1-RTT packet (connection/mod.rs:2392-2480, streams.rs:276-317). -/
inductive Kind where
  | handshakeDone | critical | dataBlocked | maxData | recvStreams | maxStreamsBidi | maxStreamsUni
  | streamsBlockedBidi | streamsBlockedUni | important | newConnectionId | pathFrames | high | normal
  | datagrams | crypto | newToken | low
  deriving DecidableEq, Repr

/-- The order in which they are asked (connection/mod.rs:2392-2480, streams.rs:276-317). -/
def order (server : Bool) : List Kind :=
  (if server then [.handshakeDone] else []) ++
    [.critical, .dataBlocked, .maxData, .recvStreams, .maxStreamsBidi, .maxStreamsUni, .streamsBlockedBidi,
      .streamsBlockedUni, .important, .newConnectionId, .pathFrames, .high, .normal, .datagrams, .crypto,
      .newToken, .low]

/-- Whether the rest is left out if the packet is full after this source: not after HANDSHAKE_DONE
(connection/mod.rs:2405-2413) and the receive streams (streams.rs:300-302). -/
def checked : Kind → Bool
  | .handshakeDone | .recvStreams => false
  | _ => true

/-- What a source did: its state, the lengths of the frames it wrote and the room it left. `mark_full`
(packet/mod.rs:340-342) leaves none. -/
structure Out (σ : Type) where
  st : σ
  frames : List Nat
  room : Nat

/-- The sources: each is given the state and the room. -/
abbrev Writers (σ : Type) := Kind → σ → Nat → Out σ

/-- What a packet holds, by source. -/
structure Packet (σ : Type) where
  st : σ
  wrote : List (Kind × List Nat)
  room : Nat

/-- `is_full` (packet/mod.rs:334-337). -/
def full (room : Nat) : Bool := decide (room < 2)

variable {σ : Type}

/-- The sources are asked in turn. -/
def serve (w : Writers σ) : List Kind → σ → Nat → Packet σ
  | [], s, room => { st := s, wrote := [], room }
  | k :: ks, s, room =>
    if checked k && full (w k s room).room then
      { st := (w k s room).st, wrote := [(k, (w k s room).frames)], room := (w k s room).room }
    else
      { serve w ks (w k s room).st (w k s room).room with
        wrote := (k, (w k s room).frames) :: (serve w ks (w k s room).st (w k s room).room).wrote }

/-- `write_appdata_frames` (connection/mod.rs:2392-2480). -/
def packet (w : Writers σ) (server : Bool) (s : σ) (room : Nat) : Packet σ := serve w (order server) s room

/-! ## Specification -/

/-- All bytes of the frames in a packet. -/
def bytes (l : List (Kind × List Nat)) : Nat := (l.map fun x => x.2.sum).sum

/-- What is asked of the sources. `need k s` is the length of the smallest form of the next frame of `k`,
if it has one: a source takes no more than the room, goes on while its next frame fits, writes nothing if
it has nothing, and does not change what the others have. No frame but HANDSHAKE_DONE has one byte
(packet/mod.rs:335). -/
structure Source (w : Writers σ) (need : Kind → σ → Option Nat) : Prop where
  fits : ∀ k s r, (w k s r).frames.sum + (w k s r).room ≤ r
  greedy : ∀ k s r n, need k (w k s r).st = some n → (w k s r).room < n
  idle : ∀ k s r, need k s = none → w k s r = { st := s, frames := [], room := r }
  others : ∀ j k s r, j ≠ k → need j (w k s r).st = need j s
  small : ∀ k s n, k ≠ .handshakeDone → need k s = some n → 2 ≤ n

/-- How much work a source has left: none exactly if it has no frame; writing a frame makes it less. -/
structure Measured (w : Writers σ) (need : Kind → σ → Option Nat) (work : Kind → σ → Nat) : Prop where
  zero : ∀ k s, work k s = 0 ↔ need k s = none
  less : ∀ k s r n, need k s = some n → n ≤ r → work k (w k s r).st < work k s
  mono : ∀ j k s r, work j (w k s r).st ≤ work j s

/-- Packets one after the other. Before each, something happens to the sources: `arrive`. -/
def packets (w : Writers σ) (server : Bool) (s : σ) : List ((σ → σ) × Nat) → List (Packet σ)
  | [] => []
  | (arrive, room) :: l =>
    packet w server (arrive s) room :: packets w server (packet w server (arrive s) room).st l

/-- The state after them. -/
def after (w : Writers σ) (server : Bool) (s : σ) : List ((σ → σ) × Nat) → σ
  | [] => s
  | (arrive, room) :: l => after w server (packet w server (arrive s) room).st l

/-! ## Sources for the examples: queues of frames, which may be endless -/

/-- A queue of frames of the given lengths; if `endless`, it is followed by as much data as there is room
for. -/
structure Queue where
  sizes : List Nat
  endless : Bool := false
  deriving DecidableEq, Repr

/-- Write frames while they fit. -/
def pop : List Nat → Nat → List Nat × List Nat × Nat
  | [], r => ([], [], r)
  | n :: l, r => if n + 2 ≤ r then ((pop l (r - (n + 2))).1, (n + 2) :: (pop l (r - (n + 2))).2.1, (pop l (r - (n + 2))).2.2) else (n :: l, [], r)

/-- A queue is served: frames have two bytes more than the number in the queue. -/
def Queue.write (q : Queue) (r : Nat) : Out Queue :=
  if q.endless then { st := q, frames := [r], room := 0 }
  else { st := { q with sizes := (pop q.sizes r).1 }, frames := (pop q.sizes r).2.1, room := (pop q.sizes r).2.2 }

def queues : Writers (Kind → Queue) := fun k s r =>
  { st := fun j => if j = k then ((s k).write r).st else s j, frames := ((s k).write r).frames, room := ((s k).write r).room }

def queuesNeed (k : Kind) (s : Kind → Queue) : Option Nat :=
  if (s k).endless then some 2 else (s k).sizes.head?.map (· + 2)

def queuesWork (k : Kind) (s : Kind → Queue) : Nat := if (s k).endless then 1 else (s k).sizes.length

theorem pop_spec (l : List Nat) (r : Nat) : (pop l r).2.1.sum + (pop l r).2.2 = r ∧
    (∀ n, (pop l r).1.head? = some n → (pop l r).2.2 < n + 2) ∧ (pop l r).1.length ≤ l.length ∧
    (∀ n, l.head? = some n → n + 2 ≤ r → (pop l r).1.length < l.length) := by
  induction l generalizing r with
  | nil => exact ⟨by simp [pop], fun n h => (by simp [pop] at h), Nat.le_refl _, fun n h => (by simp at h)⟩
  | cons m l ih =>
    unfold pop
    split
    · rename_i h
      obtain ⟨h1, h2, h3, _⟩ := ih (r - (m + 2))
      refine ⟨?_, h2, ?_, ?_⟩
      · simp only [List.sum_cons]
        omega
      · simp only [List.length_cons]
        omega
      · intro n _ _
        simp only [List.length_cons]
        omega
    · rename_i h
      refine ⟨by simp, ?_, Nat.le_refl _, ?_⟩
      · intro n hn
        simp only [List.head?_cons, Option.some.injEq] at hn
        dsimp only
        omega
      · intro n hn hr
        simp only [List.head?_cons, Option.some.injEq] at hn
        omega

theorem queues_source : Source queues queuesNeed := by
  have hw : ∀ (q : Queue) (r : Nat), (q.write r).st.endless = q.endless := by
    intro q r
    unfold Queue.write
    split <;> rfl
  refine ⟨?_, ?_, ?_, ?_, ?_⟩
  · intro k s r
    unfold queues Queue.write
    dsimp only
    split
    · simp
    · exact Nat.le_of_eq (pop_spec _ r).1
  · intro k s r n h
    have h : (if ((if k = k then ((s k).write r).st else s k)).endless then some 2
      else (if k = k then ((s k).write r).st else s k).sizes.head?.map (· + 2)) = some n := h
    rw [if_pos rfl, hw] at h
    show ((s k).write r).room < n
    unfold Queue.write at h ⊢
    cases he : (s k).endless with
    | true => rw [he] at h; cases h; exact (by decide : 0 < 2)
    | false =>
      rw [he] at h
      simp only [Bool.false_eq_true, if_false] at h ⊢
      obtain ⟨m, h1, rfl⟩ := Option.map_eq_some_iff.mp h
      exact (pop_spec _ r).2.1 m h1
  · intro k s r h
    unfold queuesNeed at h
    split at h
    · cases h
    · rename_i he
      have hl : (s k).sizes = [] := by
        cases hs : (s k).sizes with
        | nil => rfl
        | cons a l => rw [hs] at h; cases h
      have hq : (s k).write r = { st := s k, frames := [], room := r } := by
        unfold Queue.write
        rw [if_neg he, hl]
        unfold pop
        dsimp only
        rw [← hl]
      unfold queues
      rw [hq]
      congr 1
      funext j
      dsimp only
      split
      · rename_i e; rw [e]
      · rfl
  · intro j k s r h
    have e : (queues k s r).st j = s j := if_neg h
    unfold queuesNeed
    rw [e]
  · intro k s n _ h
    unfold queuesNeed at h
    split at h
    · cases h; exact Nat.le_refl _
    · obtain ⟨m, _, rfl⟩ := Option.map_eq_some_iff.mp h
      omega

/-! ## Lemmas -/

variable {w : Writers σ} {need : Kind → σ → Option Nat}

theorem bytes_cons (k : Kind) (f : List Nat) (l : List (Kind × List Nat)) : bytes ((k, f) :: l) = f.sum + bytes l := by
  simp [bytes]

theorem serve_fits (h : Source w need) (ks : List Kind) (s : σ) (r : Nat) :
    bytes (serve w ks s r).wrote + (serve w ks s r).room ≤ r := by
  induction ks generalizing s r with
  | nil => simp [serve, bytes]
  | cons k ks ih =>
    have h1 := h.fits k s r
    unfold serve
    split
    · dsimp only
      rw [bytes_cons]
      simpa [bytes] using h1
    · dsimp only
      rw [bytes_cons]
      have h2 := ih (w k s r).st (w k s r).room
      omega

theorem serve_prefix (w : Writers σ) (ks : List Kind) (s : σ) (r : Nat) : (serve w ks s r).wrote.map Prod.fst <+: ks := by
  induction ks generalizing s r with
  | nil => exact List.prefix_refl _
  | cons k ks ih =>
    unfold serve
    split
    · exact ⟨ks, rfl⟩
    · dsimp only
      rw [List.map_cons, List.prefix_cons_inj]
      exact ih _ _

/-- Sources that are not asked keep what they have. -/
theorem serve_others (h : Source w need) (ks : List Kind) (s : σ) (r : Nat) {j : Kind} (hj : j ∉ ks) :
    need j (serve w ks s r).st = need j s := by
  induction ks generalizing s r with
  | nil => rfl
  | cons k ks ih =>
    have h1 : j ≠ k := fun e => hj (e ▸ List.mem_cons_self)
    have h2 : j ∉ ks := fun e => hj (List.mem_cons_of_mem _ e)
    unfold serve
    split
    · exact h.others j k s r h1
    · dsimp only
      rw [ih _ _ h2]
      exact h.others j k s r h1

theorem serve_short (w : Writers σ) (ks : List Kind) (s : σ) (r : Nat) {k : Kind} (hk : k ∈ ks)
    (hn : k ∉ (serve w ks s r).wrote.map Prod.fst) : (serve w ks s r).room < 2 := by
  induction ks generalizing s r with
  | nil => cases hk
  | cons j ks ih =>
    unfold serve at hn ⊢
    split
    · rename_i hf
      simp only [Bool.and_eq_true, full, decide_eq_true_eq] at hf
      exact hf.2
    · rename_i hf
      rw [if_neg hf] at hn
      dsimp only at hn ⊢
      rcases List.mem_cons.mp hk with rfl | hk
      · exact absurd List.mem_cons_self hn
      · exact ih _ _ hk (fun e => hn (List.mem_cons_of_mem _ e))

theorem serve_no_inversion (h : Source w need) (ks : List Kind) (hd : ks.Nodup) (s : σ) (r : Nat) {a b : List (Kind × List Nat)}
    {j : Kind} {f : List Nat} (he : (serve w ks s r).wrote = a ++ (j, f) :: b) {n : Nat}
    (hn : need j (serve w ks s r).st = some n) : bytes b + (serve w ks s r).room < n := by
  induction ks generalizing s r a with
  | nil => simp [serve] at he
  | cons k ks ih =>
    obtain ⟨d1, d2⟩ := List.nodup_cons.mp hd
    unfold serve at he hn ⊢
    split at he
    · rename_i hf
      rw [if_pos hf] at hn
      dsimp only at he hn
      cases a with
      | cons x a => simp at he
      | nil =>
        simp only [List.nil_append, List.cons.injEq, Prod.mk.injEq] at he
        obtain ⟨⟨rfl, rfl⟩, rfl⟩ := he
        rw [if_pos hf]
        have := h.greedy k s r n hn
        simpa [bytes] using this
    · rename_i hf
      rw [if_neg hf] at hn ⊢
      dsimp only at he hn ⊢
      cases a with
      | cons x a =>
        simp only [List.cons_append, List.cons.injEq] at he
        exact ih d2 _ _ he.2 hn
      | nil =>
        simp only [List.nil_append, List.cons.injEq, Prod.mk.injEq] at he
        obtain ⟨⟨rfl, rfl⟩, rfl⟩ := he
        rw [serve_others h ks _ _ d1] at hn
        have h1 := h.greedy k s r n hn
        have h2 := serve_fits h ks (w k s r).st (w k s r).room
        omega

theorem order_nodup (server : Bool) : (order server).Nodup := by cases server <;> decide

/-! ## C120 -/

/-- Sources write in a fixed order, each once in a packet at most, and never more than there is room. -/
theorem C120_in_order (h : Source w need) (server : Bool) (s : σ) (r : Nat) :
    (packet w server s r).wrote.map Prod.fst <+: order server ∧ (order server).Nodup ∧
      bytes (packet w server s r).wrote + (packet w server s r).room ≤ r :=
  ⟨serve_prefix w _ s r, order_nodup server, serve_fits h _ s r⟩

/-- Who comes before whom: streams by priority, flow control before the important ones, and datagrams,
session tickets and tokens only after normal streams. Everybody is asked, but only a server for
HANDSHAKE_DONE. -/
theorem C120_ranks (server : Bool) :
    [Kind.critical, .important, .high, .normal, .datagrams, .low].Sublist (order server) ∧
    [Kind.critical, .maxData, .recvStreams, .maxStreamsBidi, .important].Sublist (order server) ∧
    [Kind.important, .newConnectionId, .pathFrames, .high].Sublist (order server) ∧
    [Kind.datagrams, .crypto, .newToken, .low].Sublist (order server) ∧
    (∀ k, k ≠ .handshakeDone → k ∈ order server) ∧ (Kind.handshakeDone ∈ order server ↔ server = true) := by
  refine ⟨by cases server <;> decide, by cases server <;> decide, by cases server <;> decide, by cases server <;> decide, ?_,
    by cases server <;> decide⟩
  intro k hk
  cases k <;> first | exact absurd rfl hk | (cases server <;> decide)

/-- No inversion: if a source still has a frame when the packet is done, then all that was given to later
sources and all that is left would not have been enough for it. -/
theorem C120_no_inversion (h : Source w need) (server : Bool) (s : σ) (r : Nat) {a b : List (Kind × List Nat)}
    {j : Kind} {f : List Nat} (he : (packet w server s r).wrote = a ++ (j, f) :: b) {n : Nat}
    (hn : need j (packet w server s r).st = some n) : bytes b + (packet w server s r).room < n :=
  serve_no_inversion h _ (order_nodup server) s r he hn

/-- A packet is filled: no source, asked or not, is left with a frame that would still fit. -/
theorem C120_filled (h : Source w need) (server : Bool) (s : σ) (r : Nat) {k : Kind} (hk : k ∈ order server) {n : Nat}
    (hn : need k (packet w server s r).st = some n) : (packet w server s r).room < n := by
  by_cases hm : k ∈ (packet w server s r).wrote.map Prod.fst
  · obtain ⟨⟨j, f⟩, hx, rfl⟩ := List.mem_map.mp hm
    obtain ⟨a, b, e⟩ := List.append_of_mem hx
    have := C120_no_inversion h server s r e hn
    omega
  · have h1 : (packet w server s r).room < 2 := serve_short w _ s r hk hm
    have hne : k ≠ .handshakeDone := by
      rintro rfl
      apply hm
      cases server with
      | false => simp [order] at hk
      | true =>
        have e : order true = .handshakeDone :: order false := rfl
        unfold packet
        rw [e]
        unfold serve
        exact List.mem_cons_self
    have := h.small k _ n hne hn
    omega

/-- The queues of the examples: a stream of high priority with two frames, a normal one with a large frame
and two datagrams. -/
def some4 : Kind → Queue
  | .high => { sizes := [10, 20] }
  | .normal => { sizes := [100] }
  | .datagrams => { sizes := [5, 30] }
  | _ => { sizes := [] }

example : ((packet queues false some4 60).wrote.filter (fun x => x.2 ≠ [])) = [(.high, [12, 22]), (.datagrams, [7])] ∧
    (packet queues false some4 60).room = 19 ∧ queuesNeed .normal (packet queues false some4 60).st = some 102 ∧
    queuesNeed .datagrams (packet queues false some4 60).st = some 32 := by decide +kernel

/-- The work of some sources. -/
def total (work : Kind → σ → Nat) (l : List Kind) (s : σ) : Nat := (l.map (work · s)).sum

variable {work : Kind → σ → Nat}

theorem serve_mono (hm : Measured w need work) (ks : List Kind) (s : σ) (r : Nat) (j : Kind) :
    work j (serve w ks s r).st ≤ work j s := by
  induction ks generalizing s r with
  | nil => exact Nat.le_refl _
  | cons k ks ih =>
    unfold serve
    split
    · exact hm.mono j k s r
    · exact Nat.le_trans (ih _ _) (hm.mono j k s r)

theorem total_mono {s s' : σ} (l : List Kind) (h : ∀ j ∈ l, work j s' ≤ work j s) : total work l s' ≤ total work l s := by
  induction l with
  | nil => exact Nat.le_refl _
  | cons k l ih =>
    have h1 := h k List.mem_cons_self
    have h2 := ih (fun j hj => h j (List.mem_cons_of_mem _ hj))
    unfold total at h2 ⊢
    simp only [List.map_cons, List.sum_cons]
    omega

theorem total_zero {s : σ} {l : List Kind} (h : total work l s = 0) : ∀ j ∈ l, work j s = 0 := by
  induction l with
  | nil => intro j hj; cases hj
  | cons k l ih =>
    unfold total at h ih
    simp only [List.map_cons, List.sum_cons] at h
    intro j hj
    rcases List.mem_cons.mp hj with rfl | hj
    · omega
    · exact ih (by omega) j hj

theorem serve_less (h : Source w need) (hm : Measured w need work) {R : Nat} (h2 : 2 ≤ R) (l post : List Kind) (s : σ) (r : Nat)
    (hr : R ≤ r) (hl : ∀ j ∈ l, ∀ s n, need j s = some n → n ≤ R) (hw : 0 < total work l s) :
    total work l (serve w (l ++ post) s r).st < total work l s := by
  induction l with
  | nil => cases hw
  | cons k l ih =>
    cases hk : need k s with
    | none =>
      have e := h.idle k s r hk
      have hz := (hm.zero k s).mpr hk
      have hs : (serve w (k :: l ++ post) s r).st = (serve w (l ++ post) s r).st := by
        show (serve w (k :: (l ++ post)) s r).st = _
        have hnf : ¬ (checked k && full r) = true := by
          simp only [Bool.and_eq_true, full, decide_eq_true_eq]
          rintro ⟨_, hlt⟩
          omega
        conv => lhs; rw [serve]
        rw [e, if_neg hnf]
      rw [hs]
      have h3 := serve_mono hm (l ++ post) s r k
      have h4 := ih (fun j hj => hl j (List.mem_cons_of_mem _ hj))
      unfold total at hw h4 ⊢
      simp only [List.map_cons, List.sum_cons] at hw ⊢
      omega
    | some n =>
      have h3 := hm.less k s r n hk (Nat.le_trans (hl k List.mem_cons_self s n hk) hr)
      have h4 : work k (serve w (k :: l ++ post) s r).st ≤ work k (w k s r).st := by
        show work k (serve w (k :: (l ++ post)) s r).st ≤ _
        unfold serve
        split
        · exact Nat.le_refl _
        · exact serve_mono hm _ _ _ k
      have h5 := total_mono (work := work) l (fun j _ => serve_mono hm (k :: l ++ post) s r j)
      unfold total at h5 ⊢
      simp only [List.map_cons, List.sum_cons]
      omega

/-- A source waits only for the sources before it: if the frames of the first sources fit in a packet that
has nothing else, and no more work comes to them, then after as many packets as they have work, all they
had is sent, whatever comes to the sources after them. -/
theorem C120_bounded_wait (h : Source w need) (hm : Measured w need work) (server : Bool) {R : Nat} (h2 : 2 ≤ R)
    {l post : List Kind} (ho : order server = l ++ post) (hl : ∀ j ∈ l, ∀ s n, need j s = some n → n ≤ R) (s : σ)
    (steps : List ((σ → σ) × Nat))
    (hs : ∀ x ∈ steps, R ≤ x.2 ∧ ∀ j ∈ l, ∀ s, work j (x.1 s) ≤ work j s) (hn : total work l s ≤ steps.length) :
    ∀ j ∈ l, need j (after w server s steps) = none := by
  have key : ∀ steps : List ((σ → σ) × Nat), ∀ s : σ, (∀ x ∈ steps, R ≤ x.2 ∧ ∀ j ∈ l, ∀ s, work j (x.1 s) ≤ work j s) →
      total work l (after w server s steps) ≤ total work l s - steps.length := by
    intro steps
    induction steps with
    | nil => intro s _; exact Nat.le_refl _
    | cons x steps ih =>
      intro s hs
      obtain ⟨h1, h3⟩ := hs x List.mem_cons_self
      have h4 := ih (packet w server (x.1 s) x.2).st (fun y hy => hs y (List.mem_cons_of_mem _ hy))
      have h5 : total work l (x.1 s) ≤ total work l s := total_mono l (fun j hj => h3 j hj s)
      have e : after w server s (x :: steps) = after w server (packet w server (x.1 s) x.2).st steps := rfl
      have h6 : total work l (packet w server (x.1 s) x.2).st ≤ total work l (x.1 s) - 1 := by
        unfold packet
        rw [ho]
        cases hz : total work l (x.1 s) with
        | zero =>
          have := total_mono (work := work) l (fun j _ => serve_mono hm (l ++ post) (x.1 s) x.2 j)
          omega
        | succ m =>
          have := serve_less h hm h2 l post (x.1 s) x.2 h1 hl (by omega)
          omega
      rw [e, List.length_cons]
      omega
  intro j hj
  have h1 := key steps s hs
  exact (hm.zero j _).mp (total_zero (by omega) j hj)

/-- Queues that end. -/
def lists : Writers (Kind → List Nat) := fun k s r =>
  { st := fun j => if j = k then (pop (s k) r).1 else s j, frames := (pop (s k) r).2.1, room := (pop (s k) r).2.2 }

def listsNeed (k : Kind) (s : Kind → List Nat) : Option Nat := (s k).head?.map (· + 2)

theorem lists_same (k : Kind) (s : Kind → List Nat) (r : Nat) : (lists k s r).st k = (pop (s k) r).1 := if_pos rfl

theorem lists_source : Source lists listsNeed := by
  refine ⟨fun k s r => Nat.le_of_eq (pop_spec _ r).1, ?_, ?_, ?_, ?_⟩
  · intro k s r n h
    unfold listsNeed at h
    rw [lists_same] at h
    obtain ⟨m, h1, rfl⟩ := Option.map_eq_some_iff.mp h
    exact (pop_spec _ r).2.1 m h1
  · intro k s r h
    unfold listsNeed at h
    cases hl : s k with
    | cons a l => rw [hl] at h; cases h
    | nil =>
      unfold lists
      rw [hl]
      unfold pop
      congr 1
      funext j
      dsimp only
      split
      · rename_i e; rw [e, hl]
      · rfl
  · intro j k s r h
    have e : (lists k s r).st j = s j := if_neg h
    unfold listsNeed
    rw [e]
  · intro k s n _ h
    obtain ⟨m, _, rfl⟩ := Option.map_eq_some_iff.mp h
    omega

theorem lists_measured : Measured lists listsNeed (fun k s => (s k).length) := by
  refine ⟨?_, ?_, ?_⟩
  · intro k s
    unfold listsNeed
    cases s k <;> simp
  · intro k s r n h hr
    rw [lists_same]
    obtain ⟨m, h1, rfl⟩ := Option.map_eq_some_iff.mp h
    exact (pop_spec _ r).2.2.2 m h1 hr
  · intro j k s r
    by_cases h : j = k
    · subst h
      rw [lists_same]
      exact (pop_spec _ r).2.2.1
    · exact Nat.le_of_eq (congrArg List.length (if_neg h))

/-- Two frames of high priority, which do not fit in one packet; datagrams keep coming. -/
def urgent : Kind → List Nat
  | .high => [50, 60]
  | .datagrams => [30]
  | _ => []

def more (s : Kind → List Nat) : Kind → List Nat := fun k => if k = .datagrams then s k ++ [40] else s k

example : total (fun k s => (s k).length) ((order false).take 12) urgent = 2 ∧
    (after lists false urgent [(more, 70), (more, 70)]) .high = [] ∧
    (packets lists false urgent [(more, 70), (more, 70)]).map (fun p => p.wrote.filter (fun x => x.2 ≠ [])) =
      [[(.high, [52])], [(.high, [62])]] := by decide +kernel

/-- A source that always fills packets starves those after it: none of them writes anything, in any
number of packets. -/
theorem C120_starved (server : Bool) {k : Kind} {pre post : List Kind} (ho : order server = pre ++ k :: post)
    (hc : checked k = true) (P : σ → Prop) (hp : ∀ j s r, P s → P (w j s r).st) (hf : ∀ s r, P s → (w k s r).room < 2)
    (s : σ) (h0 : P s) (steps : List ((σ → σ) × Nat)) (ha : ∀ x ∈ steps, ∀ s, P s → P (x.1 s)) :
    ∀ p ∈ packets w server s steps, ∀ j ∈ post, j ∉ p.wrote.map Prod.fst := by
  have hd := order_nodup server
  rw [ho] at hd
  have hsub : ∀ pre : List Kind, ∀ s r, P s → ∀ x ∈ (serve w (pre ++ k :: post) s r).wrote.map Prod.fst, x ∈ pre ++ [k] := by
    intro pre
    induction pre with
    | nil =>
      intro s r hs x hx
      unfold serve at hx
      rw [List.nil_append] at hx
      dsimp only at hx
      rw [if_pos (by simp only [hc, full, Bool.true_and, decide_eq_true_eq]; exact hf s r hs)] at hx
      simpa using hx
    | cons m pre ih =>
      intro s r hs x hx
      have hx : x ∈ (serve w (m :: (pre ++ k :: post)) s r).wrote.map Prod.fst := hx
      unfold serve at hx
      split at hx
      · simp only [List.map_cons, List.map_nil, List.mem_singleton] at hx
        rw [hx]
        exact List.mem_cons_self
      · rcases List.mem_cons.mp hx with rfl | hx
        · exact List.mem_cons_self
        · exact List.mem_cons_of_mem _ (ih _ _ (hp m s r hs) x hx)
  have hpk : ∀ ks : List Kind, ∀ s r, P s → P (serve w ks s r).st := by
    intro ks
    induction ks with
    | nil => intro s r hs; exact hs
    | cons m ks ih =>
      intro s r hs
      unfold serve
      split
      · exact hp m s r hs
      · exact ih _ _ (hp m s r hs)
  induction steps generalizing s with
  | nil => intro p hp; cases hp
  | cons x steps ih =>
    have hx := ha x List.mem_cons_self s h0
    intro p hpm j hj hw
    rcases List.mem_cons.mp hpm with rfl | hpm
    · unfold packet at hw
      rw [ho] at hw
      have h1 := hsub pre _ _ hx j hw
      rw [List.nodup_append] at hd
      obtain ⟨_, d2, d3⟩ := hd
      rcases List.mem_append.mp h1 with h1 | h1
      · exact d3 j h1 j (List.mem_cons_of_mem _ hj) rfl
      · rw [List.mem_singleton] at h1
        subst h1
        exact (List.nodup_cons.mp d2).1 hj
    · exact ih _ (hpk _ _ _ hx) (fun y hy => ha y (List.mem_cons_of_mem _ hy)) p hpm j hj hw

/-- One stream of normal priority that always has data starves datagrams, session tickets, NEW_TOKEN and
streams of low priority. -/
theorem C120_datagrams_starve (server : Bool) (s : Kind → Queue) (h0 : (s .normal).endless = true)
    (steps : List (((Kind → Queue) → Kind → Queue) × Nat))
    (ha : ∀ x ∈ steps, ∀ s : Kind → Queue, (s .normal).endless = true → (x.1 s .normal).endless = true) :
    ∀ p ∈ packets queues server s steps, ∀ j ∈ [Kind.datagrams, .crypto, .newToken, .low], j ∉ p.wrote.map Prod.fst := by
  refine C120_starved server (k := .normal) (pre := (order server).takeWhile (fun x => x ≠ .normal)) (by cases server <;> decide) rfl
    (fun s => (s .normal).endless = true) ?_ ?_ s h0 steps ha
  · intro j s r hs
    show (if Kind.normal = j then ((s j).write r).st else s .normal).endless = true
    split
    · rename_i e
      subst e
      unfold Queue.write
      rw [if_pos hs]
      exact hs
    · exact hs
  · intro s r hs
    show ((s .normal).write r).room < 2
    unfold Queue.write
    rw [if_pos hs]
    exact (by decide : 0 < 2)

example : (packets queues false (fun k => if k = .normal then { sizes := [], endless := true } else some4 k)
    [(id, 100), (id, 100), (id, 100)]).map (fun p => p.wrote.filter (fun x => x.2 ≠ [])) =
    [[(.high, [12, 22]), (.normal, [66])], [(.normal, [100])], [(.normal, [100])]] := by decide +kernel

/-- Packets that a queue of datagrams is offered: the room, and the number of other things in them. -/
def offers (q : List Dg.Item) : List (Nat × Nat) → Except Frm.Err (List Dg.Item × List (Dg.Item × Dg.Fate))
  | [] => .ok (q, [])
  | (rem, tokens) :: l =>
    match Dg.write q rem tokens with
    | .error e => .error e
    | .ok (q, a) =>
      match offers q l with
      | .error e => .error e
      | .ok (q, b) => .ok (q, a ++ b)

/-- A datagram that does not fit beside what else is in each packet is neither sent nor dropped, and
nothing behind it is, even if it would fit. -/
theorem C120_datagrams_stuck (d : Dg.Item) (q : List Dg.Item) (l : List (Nat × Nat))
    (h : ∀ x ∈ l, x.1 ≤ d.data.length ∧ 0 < x.2) : offers (d :: q) l = .ok (d :: q, []) := by
  induction l with
  | nil => rfl
  | cons x l ih =>
    obtain ⟨h1, h2⟩ := h x List.mem_cons_self
    have e : Dg.write (d :: q) x.1 x.2 = .ok (d :: q, []) := by
      unfold Dg.write Frm.writeDatagram
      rw [if_neg (by omega)]
      dsimp only
      rw [if_neg (by omega)]
    show (match Dg.write (d :: q) x.1 x.2 with | .error e => Except.error e | .ok (q, a) => _) = _
    rw [e]
    dsimp only
    rw [ih (fun y hy => h y (List.mem_cons_of_mem _ hy))]
    rfl

example : offers [⟨List.replicate 40 7, none⟩, ⟨[1], none⟩] [(40, 1), (30, 2)] = .ok ([⟨List.replicate 40 7, none⟩, ⟨[1], none⟩], []) ∧
    (offers [⟨List.replicate 40 7, none⟩, ⟨[1], none⟩] [(50, 0)]).toOption.map (·.1) = some [] := by decide +kernel

end Neqo.Prio
