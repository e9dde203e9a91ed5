import Verif.Lib.Basic

/-!
# The events for the application: `neqo-transport/src/events.rs`
-/
namespace Neqo.Events

/-- `ConnectionEvent` (events.rs:31-89): streams, errors, tokens, datagrams and addresses are numbers;
`state n closes` is `StateChange`, where `closes` says whether it is `Closing` or `Closed`. -/
inductive Ev where
  | authenticationNeeded
  | echFallback (name : Nat)
  | newStream (s : Nat)
  | writable (s : Nat)
  | readable (s : Nat)
  | reset (s err : Nat)
  | stopSending (s err : Nat)
  | complete (s : Nat)
  | creatable (bidi : Bool)
  | state (n : Nat) (closes : Bool)
  | zeroRttRejected
  | token (t : Nat)
  | datagram (d : Nat)
  | outcome (id o : Nat)
  | scone (rate : Option Nat)
  | migrated (l r : Nat)
  deriving Repr, DecidableEq

/-- What `insert` compares (events.rs:204-223). -/
def same (e x : Ev) : Bool :=
  match e with
  | .stopSending s _ => (match x with | .stopSending t _ => s == t | _ => false)
  | .reset s _ => (match x with | .reset t _ => s == t | _ => false)
  | _ => e == x

/-- `ConnectionEvents::insert` (events.rs:204-223). -/
def insert (q : List Ev) (e : Ev) : List Ev := if q.any (same e) then q else q ++ [e]

/-- `ConnectionEvents::remove` (events.rs:225-230). -/
def remove (q : List Ev) (f : Ev → Bool) : List Ev := q.filter fun e => !f e

/-- The functions of `ConnectionEvents` that add events (events.rs:97-202), named by the event, and
`recv_stream_complete` (events.rs:172-175), which adds none. -/
inductive Op where
  | raise (e : Ev)
  | recvComplete (s : Nat)
  | next
  deriving Repr, DecidableEq

/-- Which of the events in the queue are removed: those that `e` makes irrelevant
(events.rs:113-121, 127-135, 137-146, 152-159, 165-170, 177-180). -/
def culls (e x : Ev) : Bool :=
  match e with
  | .reset s _ => x == .readable s
  | .stopSending s _ => x == .writable s
  | .complete s => (x == .writable s) || (match x with | .stopSending t _ => t == s | _ => false)
  | .state _ closes => closes
  | .zeroRttRejected => true
  | .scone _ => (match x with | .scone _ => true | _ => false)
  | _ => false

/-- Whether the event is added without a look at the queue: `add_datagram` (events.rs:182-186) and
`datagram_outcome` (events.rs:188-198). -/
def always : Ev → Bool
  | .datagram _ | .outcome .. => true
  | _ => false

def add (q : List Ev) (e : Ev) : List Ev :=
  if always e then q ++ [e] else insert (remove q (culls e)) e

/-- The queue, what the application was given, and what was raised. -/
structure W where
  queue : List Ev := []
  given : List Ev := []
  raised : List Ev := []
  deriving Repr, DecidableEq

/-- `next_event` (events.rs:240-242) takes the first. -/
def step (w : W) : Op → W
  | .raise e => { w with queue := add w.queue e, raised := w.raised ++ [e] }
  | .recvComplete s => { w with queue := remove w.queue (· == .readable s) }
  | .next =>
    match w.queue with
    | [] => w
    | e :: q => { w with queue := q, given := w.given ++ [e] }

def run (w : W) (ops : List Op) : W := ops.foldl step w

/-! ## Specification -/

/-- `op` makes the event `e` irrelevant: the stream was reset, stopped, or is complete, the connection is
closing or starts anew after 0-RTT was rejected, or there is newer advice about the rate. -/
def Obsoletes : Op → Ev → Prop
  | .raise (.reset s _), e => e = .readable s
  | .raise (.stopSending s _), e => e = .writable s
  | .raise (.complete s), e => e = .writable s ∨ ∃ err, e = .stopSending s err
  | .raise (.state _ closes), _ => closes = true
  | .raise .zeroRttRejected, _ => True
  | .raise (.scone _), e => ∃ r, e = .scone r
  | .recvComplete s, e => e = .readable s
  | _, _ => False

/-- Two events that are the same for the application: equal, or errors of the same stream. -/
def Alike (e x : Ev) : Prop :=
  e = x ∨ (∃ s a b, e = .stopSending s a ∧ x = .stopSending s b) ∨ ∃ s a b, e = .reset s a ∧ x = .reset s b

/-- The event is a datagram, or tells what became of one. -/
def isDatagram : Ev → Bool
  | .datagram _ => true
  | .outcome _ _ => true
  | _ => false

/-- The events about datagrams, in order. -/
def dgrams (l : List Ev) : List Ev := l.filter isDatagram

/-! ## Lemmas -/

theorem always_eq : always = isDatagram := by
  funext e
  cases e <;> rfl

theorem same_iff (e x : Ev) : same e x = true ↔ Alike e x := by
  unfold same Alike
  cases e <;> cases x <;> simp <;> omega

theorem culls_iff (e x : Ev) : culls e x = true ↔ Obsoletes (.raise e) x := by
  unfold culls Obsoletes
  cases e <;> cases x <;> simp <;> constructor <;> intro h <;> exact h.symm

theorem always_culls {e : Ev} (h : always e = true) (x : Ev) : culls e x = false := by
  cases e <;> simp [always] at h <;> rfl

theorem add_mem_self (q : List Ev) (e : Ev) : ∃ x ∈ add q e, Alike e x := by
  unfold add
  split
  · exact ⟨e, by simp, .inl rfl⟩
  · unfold insert
    split
    · rename_i h
      obtain ⟨x, hx, hs⟩ := List.any_eq_true.mp h
      exact ⟨x, hx, (same_iff e x).mp hs⟩
    · exact ⟨e, by simp, .inl rfl⟩

theorem add_keeps {q : List Ev} {e x : Ev} (hx : x ∈ q) (ho : ¬ Obsoletes (.raise e) x) : x ∈ add q e := by
  have hc : culls e x = false := by
    cases h : culls e x with
    | false => rfl
    | true => exact absurd ((culls_iff e x).mp h) ho
  unfold add
  split
  · exact List.mem_append_left _ hx
  · have : x ∈ remove q (culls e) := by unfold remove; simp [hx, hc]
    unfold insert
    split
    · exact this
    · exact List.mem_append_left _ this

theorem add_sublist (q : List Ev) (e : Ev) : (add q e).Sublist (q ++ [e]) := by
  unfold add
  split
  · exact List.Sublist.refl _
  · have h : (remove q (culls e)).Sublist q := List.filter_sublist
    unfold insert
    split
    · exact h.trans (List.sublist_append_left q [e])
    · exact h.append (List.Sublist.refl _)

/-- Everything of before in the queue after adding was not made obsolete. -/
theorem add_old {q : List Ev} {e x : Ev} (h : x ∈ add q e) : (x ∈ q ∧ ¬ Obsoletes (.raise e) x) ∨ x = e := by
  unfold add at h
  split at h
  · rename_i ha
    rcases List.mem_append.mp h with h | h
    · refine .inl ⟨h, fun ho => ?_⟩
      have := (culls_iff e x).mpr ho
      rw [always_culls ha] at this; cases this
    · exact .inr (List.mem_singleton.mp h)
  · have key : x ∈ remove q (culls e) → (x ∈ q ∧ ¬ Obsoletes (.raise e) x) := by
      intro hm
      unfold remove at hm
      simp only [List.mem_filter, Bool.not_eq_true'] at hm
      refine ⟨hm.1, fun ho => ?_⟩
      rw [(culls_iff e x).mpr ho] at hm; cases hm.2
    unfold insert at h
    split at h
    · exact .inl (key h)
    · rcases List.mem_append.mp h with h | h
      · exact .inl (key h)
      · exact .inr (List.mem_singleton.mp h)

/-- No two alike, apart from datagrams and their outcomes. -/
def Distinct (q : List Ev) : Prop := q.Pairwise fun a b => Alike b a → always b = true

theorem Distinct.add {q : List Ev} (h : Distinct q) (e : Ev) : Distinct (add q e) := by
  unfold Events.add
  split
  · rename_i ha
    exact List.pairwise_append.mpr ⟨h, List.pairwise_singleton _ _, fun a _ b hb _ => by rw [List.mem_singleton.mp hb]; exact ha⟩
  · have hr : Distinct (remove q (culls e)) := List.Pairwise.filter _ h
    unfold insert
    split
    · exact hr
    · rename_i hn
      refine List.pairwise_append.mpr ⟨hr, List.pairwise_singleton _ _, ?_⟩
      intro a ha b hb hal
      rw [List.mem_singleton.mp hb] at hal
      exact absurd (List.any_eq_true.mpr ⟨a, ha, (same_iff e a).mpr hal⟩) hn

theorem Distinct.step {w : W} (h : Distinct w.queue) (op : Op) : Distinct (step w op).queue := by
  cases op with
  | raise e => exact h.add e
  | recvComplete s => exact List.Pairwise.filter _ h
  | next =>
    unfold Events.step
    dsimp only
    split
    · exact h
    · rename_i e q hq
      rw [hq] at h
      exact (List.pairwise_cons.mp h).2

theorem step_sublist {w : W} (h : (w.given ++ w.queue).Sublist w.raised) (op : Op) :
    ((step w op).given ++ (step w op).queue).Sublist (step w op).raised := by
  cases op with
  | raise e =>
    have h1 : (w.given ++ add w.queue e).Sublist (w.given ++ (w.queue ++ [e])) := (List.Sublist.refl _).append (add_sublist _ _)
    rw [← List.append_assoc] at h1
    exact h1.trans (h.append (List.Sublist.refl _))
  | recvComplete s => exact ((List.Sublist.refl _).append List.filter_sublist).trans h
  | next =>
    unfold step
    dsimp only
    split
    · exact h
    · rename_i e q hq
      rw [hq] at h
      simpa using h

/-! ## The properties -/

/-- C84: events are delivered in the order in which they happened, none more often than it happened. -/
theorem C84_in_order (ops : List Op) : ((run {} ops).given ++ (run {} ops).queue).Sublist (run {} ops).raised := by
  have key : ∀ (ops : List Op) (w : W), (w.given ++ w.queue).Sublist w.raised →
      ((run w ops).given ++ (run w ops).queue).Sublist (run w ops).raised := by
    intro ops
    induction ops with
    | nil => intro w h; exact h
    | cons op ops ih => intro w h; exact ih _ (step_sublist h op)
  exact key ops {} (List.Sublist.refl _)

/-- C84: no two events that wait are alike, apart from datagrams and what became of them. -/
theorem C84_distinct (ops : List Op) :
    (run {} ops).queue.Pairwise fun a b => Alike b a → isDatagram b = true := by
  rw [← always_eq]
  have key : ∀ (ops : List Op) (w : W), Distinct w.queue → Distinct (run w ops).queue := by
    intro ops
    induction ops with
    | nil => intro w h; exact h
    | cons op ops ih => intro w h; exact ih _ (h.step op)
  exact key ops {} List.Pairwise.nil

/-- C84: an event is not lost: after it happened, it (or one like it) waits or was delivered since,
unless something made it obsolete. -/
theorem C84_not_lost (before after : List Op) (e : Ev)
    (ho : ∀ op ∈ after, ∀ x, Alike e x → ¬ Obsoletes op x) :
    ∃ x, Alike e x ∧ (x ∈ (run {} (before ++ .raise e :: after)).queue ∨
      x ∈ (run {} (before ++ .raise e :: after)).given.drop (run {} before).given.length) := by
  have hlen : ∀ (ops : List Op) (w : W), ∃ l, (run w ops).given = w.given ++ l := by
    intro ops
    induction ops with
    | nil => intro w; exact ⟨[], by simp [run]⟩
    | cons op ops ih =>
      intro w
      obtain ⟨l, hl⟩ := ih (step w op)
      have : ∃ k, (step w op).given = w.given ++ k := by
        cases op with
        | raise e => exact ⟨[], by simp [step]⟩
        | recvComplete s => exact ⟨[], by simp [step]⟩
        | next =>
          unfold step
          dsimp only
          split
          · exact ⟨[], by simp⟩
          · exact ⟨_, rfl⟩
      obtain ⟨k, hk⟩ := this
      exact ⟨k ++ l, by rw [← List.append_assoc, ← hk]; exact hl⟩
  have key : ∀ (ops : List Op) (w : W) (g : List Ev) (x : Ev), (∀ op ∈ ops, ¬ Obsoletes op x) →
      (x ∈ w.queue ∨ ∃ l, w.given = g ++ l ∧ x ∈ l) → (x ∈ (run w ops).queue ∨ ∃ l, (run w ops).given = g ++ l ∧ x ∈ l) ∨
        ¬ ∃ l, w.given = g ++ l := by
    intro ops
    induction ops with
    | nil => intro w g x _ h; exact .inl h
    | cons op ops ih =>
      intro w g x ho h
      by_cases hg : ∃ l, w.given = g ++ l
      · obtain ⟨l0, hl0⟩ := hg
        have hop := ho op List.mem_cons_self
        have hs : x ∈ (step w op).queue ∨ ∃ l, (step w op).given = g ++ l ∧ x ∈ l := by
          rcases h with h | ⟨l, hl, hx⟩
          · cases op with
            | raise e => exact .inl (add_keeps h hop)
            | recvComplete s =>
              refine .inl ?_
              unfold step remove
              simp only [List.mem_filter]
              refine ⟨h, ?_⟩
              simpa [Obsoletes] using hop
            | next =>
              unfold step
              dsimp only
              split
              · rename_i hq; rw [hq] at h; cases h
              · rename_i e q hq
                rw [hq] at h
                rcases List.mem_cons.mp h with rfl | h
                · exact .inr ⟨l0 ++ [x], by rw [hl0, List.append_assoc], by simp⟩
                · exact .inl h
          · obtain ⟨k, hk⟩ := hlen [op] w
            exact .inr ⟨l ++ k, by
              have : (step w op).given = w.given ++ k := hk
              rw [this, hl, List.append_assoc], List.mem_append_left _ hx⟩
        rcases ih (step w op) g x (fun o h => ho o (List.mem_cons_of_mem _ h)) hs with h | h
        · exact .inl h
        · exfalso
          obtain ⟨k, hk⟩ := hlen [op] w
          exact h ⟨l0 ++ k, by
            have : (step w op).given = w.given ++ k := hk
            rw [this, hl0, List.append_assoc]⟩
      · exact .inr hg
  have hrun : run {} (before ++ .raise e :: after) = run (step (run {} before) (.raise e)) after := by
    unfold run; rw [List.foldl_append]; rfl
  obtain ⟨x, hx, hal⟩ := add_mem_self (run {} before).queue e
  refine ⟨x, hal, ?_⟩
  rw [hrun]
  rcases key after (step (run {} before) (.raise e)) (run {} before).given x (fun op h => ho op h x hal) (.inl hx) with h | h
  · rcases h with h | ⟨l, hl, hm⟩
    · exact .inl h
    · refine .inr ?_
      rw [hl, List.drop_left]
      exact hm
  · exact absurd ⟨[], by simp [step]⟩ h

/-- C84: an event that was made obsolete is not delivered afterwards, unless it happens again. -/
theorem C84_no_stale (before after : List Op) (op : Op) (e : Ev) (ho : Obsoletes op e) (hne : op ≠ .raise e)
    (ha : .raise e ∉ after) :
    e ∉ (run {} (before ++ op :: after)).queue ∧
      e ∉ (run {} (before ++ op :: after)).given.drop (run {} before).given.length := by
  have key : ∀ (ops : List Op) (w : W) (g l : List Ev), .raise e ∉ ops → e ∉ w.queue → w.given = g ++ l → e ∉ l →
      e ∉ (run w ops).queue ∧ ∃ l', (run w ops).given = g ++ l' ∧ e ∉ l' := by
    intro ops
    induction ops with
    | nil => intro w g l _ h1 h2 h3; exact ⟨h1, l, h2, h3⟩
    | cons o ops ih =>
      intro w g l hn h1 h2 h3
      have hn1 : o ≠ .raise e := fun h => hn (h ▸ List.mem_cons_self)
      have hn2 : .raise e ∉ ops := fun h => hn (List.mem_cons_of_mem _ h)
      cases o with
      | raise x =>
        refine ih _ g l hn2 (fun h => ?_) h2 h3
        rcases add_old h with h | h
        · exact h1 h.1
        · exact hn1 (by rw [h])
      | recvComplete s => exact ih _ g l hn2 (fun h => h1 ((List.mem_filter.mp h).1)) h2 h3
      | next =>
        show e ∉ (run (step w .next) ops).queue ∧ _
        cases hq : w.queue with
        | nil =>
          have : step w .next = w := by unfold step; simp [hq]
          show e ∉ (run (step w .next) ops).queue ∧ ∃ l', (run (step w .next) ops).given = g ++ l' ∧ e ∉ l'
          rw [this]
          exact ih w g l hn2 h1 h2 h3
        | cons y q =>
          have hs : step w .next = { w with queue := q, given := w.given ++ [y] } := by unfold step; simp [hq]
          show e ∉ (run (step w .next) ops).queue ∧ ∃ l', (run (step w .next) ops).given = g ++ l' ∧ e ∉ l'
          rw [hs]
          rw [hq] at h1
          refine ih _ g (l ++ [y]) hn2 (fun h => h1 (List.mem_cons_of_mem _ h)) (by rw [h2, List.append_assoc]) ?_
          intro h
          rcases List.mem_append.mp h with h | h
          · exact h3 h
          · exact h1 (by rw [List.mem_singleton.mp h]; exact List.mem_cons_self)
  have hrun : run {} (before ++ op :: after) = run (step (run {} before) op) after := by
    unfold run; rw [List.foldl_append]; rfl
  rw [hrun]
  have h1 : e ∉ (step (run {} before) op).queue ∧ (step (run {} before) op).given = (run {} before).given ++ [] := by
    cases op with
    | raise x =>
      refine ⟨fun h => ?_, by simp [step]⟩
      rcases add_old h with h | h
      · exact h.2 ho
      · exact hne (by rw [h])
    | recvComplete s =>
      have : e = .readable s := ho
      refine ⟨fun h => ?_, by simp [step]⟩
      unfold step remove at h
      simp [this] at h
    | next => exact absurd ho (by simp [Obsoletes])
  obtain ⟨h2, l, h3, h4⟩ := key after _ _ [] ha h1.1 h1.2 (by simp)
  refine ⟨h2, ?_⟩
  rw [h3, List.drop_left]
  exact h4

theorem dgrams_add (q : List Ev) (e : Ev) (h : ∀ x, ¬ (Obsoletes (.raise e) x ∧ isDatagram x = true)) :
    dgrams (add q e) = dgrams q ++ dgrams [e] := by
  unfold add
  rw [always_eq]
  split
  · unfold dgrams; rw [List.filter_append]
  · rename_i ha
    have h1 : dgrams [e] = [] := by unfold dgrams; simp [ha]
    have h2 : dgrams (remove q (culls e)) = dgrams q := by
      unfold dgrams remove
      rw [List.filter_filter]
      refine List.filter_congr fun x _ => ?_
      cases hx : isDatagram x with
      | false => simp
      | true =>
        have : culls e x = false := by
          cases hc : culls e x with
          | false => rfl
          | true => exact absurd ⟨(culls_iff e x).mp hc, hx⟩ (h x)
        simp [this]
    rw [h1, List.append_nil]
    unfold insert
    split
    · exact h2
    · rw [← h2]
      unfold dgrams
      rw [List.filter_append]
      simp [ha]

/-- C84: datagrams, and what became of those sent, are delivered each exactly once and in order, as
long as the connection is not closing and 0-RTT is not rejected. -/
theorem C84_datagrams (ops : List Op) (hs : ∀ n, .raise (.state n true) ∉ ops) (hz : .raise .zeroRttRejected ∉ ops) :
    dgrams ((run {} ops).given ++ (run {} ops).queue) = dgrams (run {} ops).raised := by
  have key : ∀ (ops : List Op) (w : W), (∀ n, .raise (.state n true) ∉ ops) → .raise .zeroRttRejected ∉ ops →
      dgrams (w.given ++ w.queue) = dgrams w.raised → dgrams ((run w ops).given ++ (run w ops).queue) = dgrams (run w ops).raised := by
    intro ops
    induction ops with
    | nil => intro w _ _ h; exact h
    | cons op ops ih =>
      intro w hs hz h
      refine ih (step w op) (fun n h => hs n (List.mem_cons_of_mem _ h)) (fun h => hz (List.mem_cons_of_mem _ h)) ?_
      cases op with
      | raise e =>
        have hno : ∀ x, ¬ (Obsoletes (.raise e) x ∧ isDatagram x = true) := by
          intro x ⟨h1, h2⟩
          cases e with
          | state n c =>
            cases c with
            | true => exact hs n List.mem_cons_self
            | false => exact absurd h1 (by simp [Obsoletes])
          | zeroRttRejected => exact hz List.mem_cons_self
          | reset s a => rw [show x = .readable s from h1] at h2; cases h2
          | stopSending s a => rw [show x = .writable s from h1] at h2; cases h2
          | complete s =>
            rcases h1 with h1 | ⟨a, h1⟩ <;> rw [h1] at h2 <;> cases h2
          | scone r => obtain ⟨a, h1⟩ := h1; rw [h1] at h2; cases h2
          | _ => exact h1
        have ha := dgrams_add w.queue e hno
        show dgrams (w.given ++ add w.queue e) = dgrams (w.raised ++ [e])
        unfold dgrams at h ha ⊢
        rw [List.filter_append, ha, List.filter_append, ← h, List.filter_append, List.append_assoc]
      | recvComplete s =>
        show dgrams (w.given ++ remove w.queue _) = dgrams w.raised
        rw [← h]
        unfold dgrams remove
        rw [List.filter_append, List.filter_append, List.filter_filter]
        congr 1
        refine List.filter_congr fun x _ => ?_
        cases x <;> simp [isDatagram]
      | next =>
        unfold step
        dsimp only
        split
        · exact h
        · rename_i e q hq
          rw [hq] at h
          simpa using h
  exact key ops {} hs hz rfl

/-- C84: when the connection is closing, the application is told this next, and nothing of before. -/
theorem C84_closing (w : W) (n : Nat) : (step w (.raise (.state n true))).queue = [.state n true] := by
  have : remove w.queue (culls (.state n true)) = [] := by
    unfold remove culls; simp
  show add w.queue (.state n true) = _
  unfold add always
  rw [this]
  rfl

/-! ## What goes wrong -/

/-- Advice about the rate is replaced, but not the path that is used: with a migration from path 1 to
path 2 and back while the application does not look, the second event about path 1 is dropped as a
duplicate, and the last thing the application is told is that path 2 is used. -/
theorem C84_last_path_wrong :
    (run {} [.raise (.migrated 1 1), .raise (.migrated 2 2), .raise (.migrated 1 1), .next, .next, .next]).given =
      [.migrated 1 1, .migrated 2 2] := by decide

/-- If the peer closes the connection, the events of before stay, though all streams are gone
(`set_state`, connection/mod.rs:3782-3804, clears the streams for `Draining` as well, but
`connection_state_change` not the events): the application is told of a stream to be read that
does not exist any more. -/
theorem C84_draining_keeps (n s : Nat) :
    (run {} [.raise (.readable s), .raise (.state n false)]).queue = [.readable s, .state n false] := by
  simp [run, step, add, always, insert, remove, culls, same]

/-- The peer decides how many datagrams wait: there is no bound. -/
theorem C84_datagrams_unbounded (n : Nat) :
    (run {} ((List.range n).map fun d => .raise (.datagram d))).queue.length = n := by
  have key : ∀ (l : List Nat) (w : W), (run w (l.map fun d => .raise (.datagram d))).queue.length = w.queue.length + l.length := by
    intro l
    induction l with
    | nil => intro w; rfl
    | cons d l ih =>
      intro w
      show (run (step w (.raise (.datagram d))) (l.map fun d => .raise (.datagram d))).queue.length = _
      rw [ih]
      simp [step, add, always]; omega
  rw [key]; simp

/-! ## Examples -/

example : run {} [.raise (.newStream 0), .raise (.readable 0), .raise (.readable 0), .next, .raise (.writable 0), .raise (.reset 0 7),
      .raise (.reset 0 8), .raise (.datagram 3), .raise (.datagram 3), .raise (.scone (some 5)), .raise (.scone none), .next] =
    ⟨[.reset 0 7, .datagram 3, .datagram 3, .scone none], [.newStream 0, .writable 0],
      [.newStream 0, .readable 0, .readable 0, .writable 0, .reset 0 7, .reset 0 8, .datagram 3, .datagram 3, .scone (some 5), .scone none]⟩ := by
  decide

end Neqo.Events
