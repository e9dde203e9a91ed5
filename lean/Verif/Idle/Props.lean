import Verif.Idle.Model

/-!
The idle timeout (C46).
-/

namespace Neqo.Idle

/-! ### Specification -/

/-- What matters to the timer: a packet was processed, received at the given time; an
ack-eliciting packet was sent. -/
inductive Act where
  | recv (t : Nat)
  | send (t : Nat)
  deriving DecidableEq, Repr

/-- The time of an action. -/
def Act.time : Act → Nat
  | .recv t | .send t => t

/-- Whether an ack-eliciting packet was sent since a packet was last processed (newest first). -/
def sentSince : List Act → Bool
  | .send _ :: _ => true
  | _ => false

/-- The times the timer is to be restarted at (RFC 9000 section 10.1): when a packet is processed,
and when an ack-eliciting packet is sent and none was since a packet was last processed. -/
def restarts : List Act → List Nat
  | [] => []
  | .recv t :: l => t :: restarts l
  | .send t :: l => if sentSince l then restarts l else t :: restarts l

/-- The period the two endpoints agree on (RFC 9000 section 10.1); 0 is no limit. -/
def negotiated (l p : Nat) : Nat := if l = 0 then p else if p = 0 then l else min l p

/-- What can happen to a connection. -/
inductive Ev where
  /-- The peer's transport parameters arrive. -/
  | peer (p : Nat)
  | recv (t : Nat)
  | send (t : Nat)
  /-- The application calls `process`, the probe timeout being `pto`. -/
  | timer (now pto : Nat)
  /-- A packet is being written and a keep-alive is wanted. -/
  | keepAlive (now pto : Nat)
  /-- A keep-alive is acknowledged or lost. -/
  | keepAliveDone
  deriving DecidableEq, Repr

/-- The timer, what happened (newest first), the peer's parameter, whether the connection was
closed for idleness and how many keep-alives were sent and came back. -/
structure Hist where
  i : Idle
  log : List Act
  peer : Option Nat
  closed : Bool
  kaSent : Nat
  kaDone : Nat
  deriving DecidableEq, Repr

namespace Hist

/-- A new connection with this idle timeout. -/
def init (l : Nat) : Hist :=
  { i := Idle.new l, log := [], peer := none, closed := false, kaSent := 0, kaDone := 0 }

/-- One event; nothing happens to a connection that is closed. -/
def step (h : Hist) (e : Ev) : Hist :=
  if h.closed then h
  else
    match e with
    | .peer p => { h with i := h.i.setPeer p, peer := some p }
    | .recv t => { h with i := h.i.onReceived t, log := .recv t :: h.log }
    | .send t => { h with i := h.i.onSent t, log := .send t :: h.log }
    | .timer now pto => { h with closed := h.i.expired now pto }
    | .keepAlive now pto =>
      { h with i := (h.i.sendKeepAlive now pto).1,
               kaSent := if (h.i.sendKeepAlive now pto).2 then h.kaSent + 1 else h.kaSent }
    | .keepAliveDone => if h.i.outstanding then { h with i := h.i.keepAliveDone, kaDone := h.kaDone + 1 } else h

/-- Transport parameters arrive once. -/
def Legal (h : Hist) : Ev → Prop
  | .peer _ => h.peer = none
  | _ => True

/-- The histories that can be reached. -/
inductive Reached (l : Nat) : Hist → Prop where
  | init : Reached l (init l)
  | step {h : Hist} {e : Ev} : Reached l h → h.Legal e → Reached l (h.step e)

/-- Times do not go back: no packet is processed after a later event. -/
def InOrder (h : Hist) : Prop := h.log.Pairwise (fun new old => old.time ≤ new.time)

instance (h : Hist) : Decidable h.InOrder := by unfold InOrder; infer_instance

end Hist

/-! ### Invariant -/

theorem Hist.Reached.timeout {l : Nat} {h : Hist} (hr : Hist.Reached l h) :
    h.i.timeout = match h.peer with
      | none => l
      | some p => if p = 0 then l else min l p := by
  induction hr with
  | init => rfl
  | @step h e _ hl ih =>
    unfold Hist.step
    split
    · exact ih
    · cases e with
      | peer p =>
        have hn : h.peer = none := hl
        rw [hn] at ih
        simp only at ih ⊢
        unfold Idle.setPeer
        by_cases hp : p = 0
        · rw [if_neg (by omega), if_pos hp]; exact ih
        · rw [if_pos (by omega), if_neg hp]
          show min h.i.timeout p = _
          rw [ih]
      | recv t =>
        simp only
        rw [show (h.i.onReceived t).timeout = h.i.timeout by
          unfold Idle.onReceived; split <;> try rfl
          split <;> rfl
          split <;> rfl]
        exact ih
      | send t =>
        simp only
        rw [show (h.i.onSent t).timeout = h.i.timeout by
          unfold Idle.onSent; split <;> rfl]
        exact ih
      | timer now pto => exact ih
      | keepAlive now pto =>
        simp only
        rw [show (h.i.sendKeepAlive now pto).1.timeout = h.i.timeout by
          unfold Idle.sendKeepAlive; split <;> rfl]
        exact ih
      | keepAliveDone =>
        simp only
        split <;> exact ih

/-- What the state says about the log. -/
def Agrees (i : Idle) (log : List Act) : Prop :=
  match i.state with
  | .init => log = []
  | .received t => sentSince log = false ∧ (restarts log).head? = some t ∧ ∀ a ∈ log, a.time ≤ t
  | .sent t => sentSince log = true ∧ (restarts log).head? = some t

theorem restarts_mem {log : List Act} {t : Nat} (h : t ∈ restarts log) : ∃ a ∈ log, a.time = t := by
  induction log with
  | nil => cases h
  | cons a l ih =>
    have tail : t ∈ restarts l → ∃ a' ∈ a :: l, a'.time = t := fun h =>
      let ⟨a', h1, h2⟩ := ih h
      ⟨a', List.mem_cons_of_mem _ h1, h2⟩
    cases a with
    | recv s =>
      rcases List.mem_cons.mp h with h | h
      · exact ⟨_, List.mem_cons_self, h.symm⟩
      · exact tail h
    | send s =>
      rw [restarts] at h
      split at h
      · exact tail h
      · rcases List.mem_cons.mp h with h | h
        · exact ⟨_, List.mem_cons_self, h.symm⟩
        · exact tail h

theorem restarts_sorted {log : List Act} (h : log.Pairwise (fun new old => old.time ≤ new.time)) :
    (restarts log).Pairwise (fun new old => old ≤ new) := by
  induction log with
  | nil => exact List.Pairwise.nil
  | cons a l ih =>
    rw [List.pairwise_cons] at h
    cases a with
    | recv s =>
      rw [restarts, List.pairwise_cons]
      refine ⟨fun t ht => ?_, ih h.2⟩
      obtain ⟨a, h1, h2⟩ := restarts_mem ht
      have := h.1 a h1
      rw [h2] at this; exact this
    | send s =>
      rw [restarts]
      split
      · exact ih h.2
      · rw [List.pairwise_cons]
        refine ⟨fun t ht => ?_, ih h.2⟩
        obtain ⟨a, h1, h2⟩ := restarts_mem ht
        have := h.1 a h1
        rw [h2] at this; exact this

theorem Hist.Reached.agrees {l : Nat} {h : Hist} (hr : Hist.Reached l h) (ho : h.InOrder) :
    Agrees h.i h.log := by
  induction hr with
  | init => rfl
  | @step h e _ hl ih =>
    unfold Hist.step at ho ⊢
    split
    · rename_i hc
      rw [if_pos hc] at ho
      exact ih ho
    · rename_i hc
      rw [if_neg hc] at ho
      cases e with
      | peer p =>
        have := ih ho
        simp only
        unfold Idle.setPeer
        split <;> exact this
      | timer now pto => exact ih ho
      | keepAlive now pto =>
        have := ih ho
        simp only
        unfold Idle.sendKeepAlive
        split <;> exact this
      | keepAliveDone =>
        simp only at ho ⊢
        split
        · rename_i hk; rw [if_pos hk] at ho; exact ih ho
        · rename_i hk; rw [if_neg hk] at ho; exact ih ho
      | recv t =>
        have ho' : (Act.recv t :: h.log).Pairwise (fun new old => old.time ≤ new.time) := ho
        rw [List.pairwise_cons] at ho'
        have ha := ih ho'.2
        have hle : ∀ s, (restarts h.log).head? = some s → s ≤ t := by
          intro s hs
          obtain ⟨a, h1, h2⟩ := restarts_mem (List.mem_of_mem_head? hs)
          have := ho'.1 a h1
          rw [h2] at this; exact this
        have fin : Agrees { h.i with state := .received t } (.recv t :: h.log) := by
          refine ⟨rfl, rfl, ?_⟩
          intro a ha
          rcases List.mem_cons.mp ha with rfl | ha
          · exact Nat.le_refl _
          · exact ho'.1 a ha
        simp only
        unfold Idle.onReceived
        unfold Agrees at ha
        split
        · exact fin
        · rename_i s hs
          rw [hs] at ha
          rw [if_pos (hle s ha.2.1)]; exact fin
        · rename_i s hs
          rw [hs] at ha
          rw [if_pos (hle s ha.2)]; exact fin
      | send t =>
        have ho' : (Act.send t :: h.log).Pairwise (fun new old => old.time ≤ new.time) := ho
        rw [List.pairwise_cons] at ho'
        have ha := ih ho'.2
        simp only
        unfold Idle.onSent
        unfold Agrees at ha
        split
        · rename_i s hs
          rw [hs] at ha
          unfold Agrees
          rw [hs]
          refine ⟨rfl, ?_⟩
          rw [restarts, if_pos ha.1]; exact ha.2
        · rename_i hs
          rw [hs] at ha
          have ha : h.log = [] := ha
          refine ⟨rfl, ?_⟩
          rw [ha]; rfl
        · rename_i s hs
          rw [hs] at ha
          refine ⟨rfl, ?_⟩
          rw [restarts, if_neg (by rw [ha.1]; simp)]; rfl

/-! ## C46 -/

/-- When anything has happened, the connection is closed for idleness exactly when the timer runs
with every restart at least the period back, the period being the greater of the idle timeout and
three probe timeouts.  Missing: packets processed after a later event, see
`C46_cached_packet_closes_early`. -/
theorem C46_closed_iff_idle_partial {l : Nat} {h : Hist} {now pto : Nat} (hr : Hist.Reached l h)
    (ho : h.InOrder) (hopen : h.closed = false) (hlog : h.log ≠ []) :
    (h.step (.timer now pto)).closed = true ↔
      ∀ t ∈ restarts h.log, t + max h.i.timeout (3 * pto) ≤ now := by
  have ha := hr.agrees ho
  have hs : (h.step (.timer now pto)).closed = h.i.expired now pto := by
    unfold Hist.step; rw [if_neg (by rw [hopen]; simp)]
  rw [hs]
  unfold Idle.expired Idle.expiry
  rw [decide_eq_true_eq]
  have key : ∀ s, (restarts h.log).head? = some s → ∀ t ∈ restarts h.log, t ≤ s := by
    intro s hs t ht
    have hsort := restarts_sorted ho
    cases hl : restarts h.log with
    | nil => rw [hl] at ht; cases ht
    | cons a r =>
      rw [hl] at hs ht hsort
      obtain rfl := Option.some.inj hs
      rcases List.mem_cons.mp ht with rfl | ht
      · exact Nat.le_refl _
      · exact (List.pairwise_cons.mp hsort).1 t ht
  have main : ∀ s, h.i.start now = s → (restarts h.log).head? = some s →
      (h.i.start now + max h.i.timeout (pto * 3) ≤ now ↔
        ∀ t ∈ restarts h.log, t + max h.i.timeout (3 * pto) ≤ now) := by
    intro s h1 h2
    rw [h1, Nat.mul_comm pto 3]
    refine ⟨fun h t ht => ?_, fun h => h s (List.mem_of_mem_head? h2)⟩
    have := key s h2 t ht
    omega
  unfold Agrees at ha
  cases hst : h.i.state with
  | init => rw [hst] at ha; exact absurd ha hlog
  | received s =>
    rw [hst] at ha
    exact main s (by unfold Idle.start; rw [hst]) ha.2.1
  | sent s =>
    rw [hst] at ha
    exact main s (by unfold Idle.start; rw [hst]) ha.2

/-- The period is the one both endpoints agreed on.  Missing: a connection set up with a timeout
of zero, see `C46_zero_timeout_closes`. -/
theorem C46_period_partial {l p : Nat} {h : Hist} (hr : Hist.Reached l h) (hl : l ≠ 0)
    (hp : h.peer = some p) : h.i.timeout = negotiated l p := by
  rw [hr.timeout, hp]
  unfold negotiated
  simp only
  rw [if_neg hl]

/-- A packet processed or a first ack-eliciting packet sent within the period keeps the connection
open, whatever happened before. -/
theorem C46_activity_keeps_open {l : Nat} {h : Hist} {now pto t : Nat} (hr : Hist.Reached l h)
    (ho : h.InOrder) (hopen : h.closed = false) (ht : t ∈ restarts h.log)
    (hnow : now < t + max h.i.timeout (3 * pto)) :
    (h.step (.timer now pto)).closed = false := by
  have hlog : h.log ≠ [] := by intro hl; rw [hl] at ht; cases ht
  cases hc : (h.step (.timer now pto)).closed with
  | false => rfl
  | true =>
    have := (C46_closed_iff_idle_partial hr ho hopen hlog).mp hc t ht
    omega

/-- The time given to the application to call back at is the time the connection closes: not
before, and any call from then on closes it. -/
theorem C46_deadline {l : Nat} {h : Hist} {now pto later : Nat} (hr : Hist.Reached l h)
    (hopen : h.closed = false) (hst : h.log ≠ []) (ho : h.InOrder) :
    (h.step (.timer later pto)).closed = true ↔ h.i.expiry now pto ≤ later := by
  have hs : (h.step (.timer later pto)).closed = h.i.expired later pto := by
    unfold Hist.step; rw [if_neg (by rw [hopen]; simp)]
  rw [hs]
  unfold Idle.expired
  rw [decide_eq_true_eq]
  have ha := hr.agrees ho
  unfold Agrees at ha
  have : h.i.start now = h.i.start later := by
    unfold Idle.start
    cases hx : h.i.state with
    | init => rw [hx] at ha; exact absurd ha hst
    | received s => rfl
    | sent s => rfl
  unfold Idle.expiry
  rw [this]

/-- A connection agrees on 20 s, processes a packet at 1 s, sends at 2 s and at 9 s: it is open
at 21.999 s and closed at 22 s. -/
example : ∃ h, Hist.Reached 30000 h ∧ h.InOrder ∧ h.closed = false ∧ h.log ≠ [] ∧
    h.i.timeout = negotiated 30000 20000 ∧ restarts h.log = [2000, 1000] ∧
    (h.step (.timer 21999 100)).closed = false ∧ (h.step (.timer 22000 100)).closed = true := by
  have h0 := Hist.Reached.init (l := 30000)
  have h1 := h0.step (e := .recv 1000) trivial
  have h2 := h1.step (e := .peer 20000) rfl
  have h3 := h2.step (e := .send 2000) trivial
  have h4 := h3.step (e := .send 9000) trivial
  exact ⟨_, h4, by decide, rfl, by decide, by decide, by decide, by decide, by decide⟩

/-- A packet that was kept until its keys came, and is processed after something was sent, does
not count as processed: what is sent next does not restart the timer.  Here a packet is sent at
10 s, one received at 5 s is processed, and another sent at 20 s; the connection closes at 40 s,
though the timer should have been restarted at 20 s. -/
theorem C46_cached_packet_closes_early :
    ∃ h, Hist.Reached 30000 h ∧ h.closed = false ∧ 20000 ∈ restarts h.log ∧
      (h.step (.timer 40000 100)).closed = true := by
  have h0 := Hist.Reached.init (l := 30000)
  have h1 := h0.step (e := .send 10000) trivial
  have h2 := h1.step (e := .recv 5000) trivial
  have h3 := h2.step (e := .send 20000) trivial
  exact ⟨_, h3, rfl, by decide, by decide⟩

/-- A connection set up without an idle timeout (0, which is also what its peer is told) closes
after three probe timeouts, though the two have agreed on the peer's period. -/
theorem C46_zero_timeout_closes :
    ∃ h, Hist.Reached 0 h ∧ h.InOrder ∧ h.closed = false ∧ negotiated 0 30000 = 30000 ∧
      h.peer = some 30000 ∧ 1000 ∈ restarts h.log ∧ (h.step (.timer 1300 100)).closed = true := by
  have h0 := Hist.Reached.init (l := 0)
  have h1 := h0.step (e := .peer 30000) rfl
  have h2 := h1.step (e := .recv 1000) trivial
  exact ⟨_, h2, by decide, rfl, rfl, rfl, by decide, by decide⟩

/-- At most one keep-alive is outstanding. -/
theorem C46_one_keep_alive {l : Nat} {h : Hist} (hr : Hist.Reached l h) :
    h.kaSent = h.kaDone + (if h.i.outstanding then 1 else 0) := by
  induction hr with
  | init => rfl
  | @step h e _ hl ih =>
    unfold Hist.step
    split
    · exact ih
    · cases e with
      | peer p =>
        simp only
        rw [show (h.i.setPeer p).outstanding = h.i.outstanding by
          unfold Idle.setPeer; split <;> rfl]
        exact ih
      | recv t =>
        simp only
        rw [show (h.i.onReceived t).outstanding = h.i.outstanding by
          unfold Idle.onReceived; split <;> try rfl
          split <;> rfl
          split <;> rfl]
        exact ih
      | send t =>
        simp only
        rw [show (h.i.onSent t).outstanding = h.i.outstanding by
          unfold Idle.onSent; split <;> rfl]
        exact ih
      | timer now pto => exact ih
      | keepAlive now pto =>
        simp only
        unfold Idle.sendKeepAlive
        split
        · rename_i hk
          rw [hk.1] at ih
          simp only [if_true]
          simp at ih
          omega
        · rw [if_neg (by simp)]; exact ih
      | keepAliveDone =>
        simp only
        split
        · rename_i hk
          rw [if_pos hk] at ih
          show h.kaSent = h.kaDone + 1 + _
          rw [ih]
          rfl
        · rename_i hk
          rw [if_neg hk] at ih
          exact ih

/-- A keep-alive is due no later than the connection closes, and is asked for from then on until
it is sent. -/
theorem C46_keep_alive_in_time (i : Idle) (now pto : Nat) (hout : i.outstanding = false) :
    (∀ t, i.nextKeepAlive now pto = some t → now < t ∧ t ≤ i.expiry now pto) ∧
    (i.nextKeepAlive now pto = none → (i.sendKeepAlive now pto).2 = true) := by
  unfold Idle.nextKeepAlive Idle.sendKeepAlive Idle.expiry
  rw [if_neg (by rw [hout]; simp)]
  have hle : i.keepAliveTimeout now pto ≤ i.start now + max i.timeout (pto * 3) := by
    unfold Idle.keepAliveTimeout
    have := Nat.div_le_self i.timeout 2
    omega
  by_cases h : i.keepAliveTimeout now pto ≤ now
  · rw [if_pos h, if_pos ⟨hout, h⟩]
    exact ⟨(fun t ht => by cases ht), fun _ => rfl⟩
  · rw [if_neg h]
    refine ⟨fun t ht => ?_, (fun hn => by cases hn)⟩
    obtain rfl := Option.some.inj ht
    omega

/-- A keep-alive sent at half the period, acknowledged, and another. -/
example : ∃ h, Hist.Reached 30000 h ∧ h.kaSent = 2 ∧ h.kaDone = 1 := by
  have h0 := Hist.Reached.init (l := 30000)
  have h1 := h0.step (e := .recv 1000) trivial
  have h2 := h1.step (e := .keepAlive 16000 100) trivial
  have h3 := h2.step (e := .keepAlive 16001 100) trivial
  have h4 := h3.step (e := .keepAliveDone) trivial
  have h5 := h4.step (e := .keepAlive 16002 100) trivial
  exact ⟨_, h5, by decide, by decide⟩

end Neqo.Idle
