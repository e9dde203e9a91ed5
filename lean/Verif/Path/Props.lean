import Verif.Path.Hist

/-!
Path validation (C55), the set of paths (C56) and the peer's connection IDs (C34).
-/

namespace Neqo.Path

/-! ### Running histories -/

instance (f : PFrame) : Decidable (Hist.FrameOk f) := by
  cases f <;> unfold Hist.FrameOk <;> infer_instance

instance (h : Hist) (e : Ev) : Decidable (h.Legal e) := by
  cases e <;> unfold Hist.Legal
  case recv fin => cases fin <;> infer_instance
  all_goals infer_instance

/-- Run events that are all legal and all succeed. -/
def Hist.run (h : Hist) : List Ev → Option Hist
  | [] => some h
  | e :: l =>
    if h.Legal e then
      match h.step e with
      | .ok h' => h'.run l
      | .error _ => none
    else none

theorem Hist.run_reached {client : Bool} {h h' : Hist} {l : List Ev} (hr : Hist.Reached client h)
    (hl : h.run l = some h') : Hist.Reached client h' := by
  induction l generalizing h with
  | nil =>
    obtain rfl := Option.some.inj hl
    exact hr
  | cons e l ih =>
    rw [Hist.run] at hl
    split at hl
    · rename_i hleg
      split at hl
      · rename_i h1 hs
        exact ih (.step hr hleg hs) hl
      · cases hl
    · cases hl

/-- What these events lead to, or nothing if they do not all succeed. -/
def Hist.after (client : Bool) (l : List Ev) : Hist := ((init client).run l).getD (init client)

theorem Hist.after_reached (client : Bool) (l : List Ev) : Reached client (after client l) := by
  unfold Hist.after
  cases h : (init client).run l with
  | none => exact .init
  | some h' => exact run_reached .init h

/-- A client with two connection IDs to spare. -/
def clientUp : List Ev :=
  [.start 1 2 1200 0 [10] 100 0, .connected 5,
   .recv 1 2 1200 100 6 [.newCid ⟨1, [11], 101⟩ 0, .newCid ⟨2, [12], 102⟩ 0] .app]

/-- The client tries to migrate to the local address 7. -/
def clientMigrating : List Ev := clientUp ++ [.migrate 7 2 1200 false 10, .write 100 55 true 11]

/-- A server whose client moves to the address 8. -/
def serverMigrating : List Ev :=
  [.start 2 1 1200 1200 [10] 100 0, .recv 2 1 1200 100 3 [] .handshake, .connected 5,
   .recv 2 1 1200 100 6 [.newCid ⟨1, [11], 101⟩ 0, .newCid ⟨2, [12], 102⟩ 0] .app,
   .recv 2 8 1200 100 10 [.challenge 33] .app, .write 100 55 true 11]

/-! ### C55: path validation -/

/-- A path becomes valid only for one of the reasons listed in `Hist.Cause`: above all, because the
answer to the last challenge sent on it came. -/
theorem C55_validated_by {client : Bool} {h h' : Hist} {e : Ev} {j : Nat}
    (hr : Hist.Reached client h) (hl : h.Legal e) (hs : h.step e = .ok h')
    (hv : (h'.c.heap j).isValid = true) : (h.c.heap j).isValid = true ∨ h.Cause e j :=
  ((Hist.step_good hr.hi.1 hl).1 h' hs).valid j hv

-- The path to address 7 becomes valid, and the primary one, when the answer comes.
example : let h := Hist.after true clientMigrating
    let e := Ev.recv 1 2 1200 50 20 [.response 55] .app
    h.Legal e ∧ (h.c.heap 1).isValid = false ∧
    (h.step e).toOption.map (fun h' => ((h'.c.heap 1).isValid, h'.c.primary)) = some (true, some 1) := by
  decide +kernel

-- Another answer has no effect.
example : let h := Hist.after true clientMigrating
    let e := Ev.recv 1 2 1200 50 20 [.response 54] .app
    h.Legal e ∧
    (h.step e).toOption.map (fun h' => ((h'.c.heap 1).isValid, h'.c.primary)) = some (false, some 0) := by
  decide +kernel

/-- Once it has ended its handshake, a server has a path made valid only by the answer to the last
challenge that it sent on that path. -/
theorem C55_server_needs_response {h h' : Hist} {e : Ev} {j : Nat}
    (hr : Hist.Reached false h) (hc : h.c.connected = true) (hne : h.c.paths ≠ []) (hl : h.Legal e)
    (hs : h.step e = .ok h') (hn : (h.c.heap j).isValid = false)
    (hv : (h'.c.heap j).isValid = true) :
    ∃ loc rem mtu len now fs fin d, e = .recv loc rem mtu len now fs fin ∧
      PFrame.response d ∈ fs ∧ (h.seen.chal j).head? = some d := by
  have hcl := hr.hi.2
  rcases C55_validated_by hr hl hs hv with h1 | h1
  · rw [hn] at h1; cases h1
  · cases e with
    | recv loc rem mtu len now fs fin =>
      rcases h1 with ⟨d, h1, h2⟩ | ⟨h1, _⟩
      · exact ⟨loc, rem, mtu, len, now, fs, fin, d, rfl, h1, h2⟩
      · subst h1
        have := hl.2.2.2
        rw [hc] at this; cases this
    | connected now =>
      have := hl.2
      rw [hc] at this; cases this
    | start => exact absurd hl.1 hne
    | migrate loc rem mtu force now =>
      have := h1.1
      rw [hcl] at this; cases this
    | _ => exact h1.elim

example : let h := Hist.after false serverMigrating
    let e := Ev.recv 2 8 1200 50 20 [.response 55] .app
    h.c.connected = true ∧ h.c.paths ≠ [] ∧ h.Legal e ∧ (h.c.heap 1).isValid = false ∧
    h.seen.chal 1 = [55] ∧
    (h.step e).toOption.map (fun h' => (h'.c.heap 1).isValid) = some true := by
  decide +kernel

/-- A path that is valid stays so as long as it is in use. -/
theorem C55_stays_valid {client : Bool} {h h' : Hist} {e : Ev} {j : Nat}
    (hr : Hist.Reached client h) (hl : h.Legal e) (hs : h.step e = .ok h')
    (hv : (h.c.heap j).isValid = true) : (h'.c.heap j).isValid = true :=
  ((Hist.step_good hr.hi.1 hl).1 h' hs).keep j hv

/-- A client sends, probes aside, only on a valid path. -/
theorem C55_client_primary_valid {h : Hist} (hr : Hist.Reached true h) {p : Nat}
    (hp : h.c.primary = some p) : (h.c.heap p).isValid = true :=
  hr.hi.1.prim hr.hi.2 p hp

example : (Hist.after true clientMigrating).c.primary = some 0 := by decide +kernel

/-- The PATH_RESPONSE frames sent on a path repeat PATH_CHALLENGE frames that were received on that
path, in their order, each at most once. -/
theorem C55_echo {client : Bool} {h : Hist} (hr : Hist.Reached client h) (j : Nat) :
    (h.seen.resp j).Sublist (h.seen.got j) :=
  (List.sublist_append_right _ _).trans (hr.hi.1.echo j)

example : (Hist.after false serverMigrating).seen.resp 1 = [33] ∧
    (Hist.after false serverMigrating).seen.got 1 = [33] ∧
    (Hist.after false serverMigrating).seen.resp 0 = [] := by decide +kernel

/-- The last PATH_CHALLENGE is answered, on the path it came on, by the next packet with room that
is sent on that path. -/
theorem C55_challenge_answered (p : Path) (d : Nat) (room data : Nat) (full : Bool) (now : Nat)
    (hp : p.challenge = some d) (hroom : 9 ≤ room) :
    (p.writeFrames room data full now).2.1 = some d := by
  unfold Path.writeFrames
  rw [if_neg (by omega), hp]
  dsimp only
  generalize (if (some d).isSome = true then room - 9 else room) = room'
  split
  · rfl
  · split <;> rfl

/-- A path in use that is not valid is being validated: the next packet with room on it carries a
challenge, or the answer to one is awaited and a timer runs, or it is about to be dropped. -/
theorem C55_validation_goes_on {client : Bool} {h : Hist} (hr : Hist.Reached client h) {j : Nat}
    (hn : (h.c.heap j).isValid = false) :
    (∀ room data full now, 18 ≤ room →
      ((h.c.heap j).writeFrames room data full now).2.2 = some data) ∨
    (∀ pto, ∃ t, (h.c.heap j).nextTimeout pto = some t) ∨
    (∀ now pto, ((h.c.heap j).reprobe now pto).viable now pto = false) := by
  have hok := hr.hi.1.inv.ok j
  cases hst : (h.c.heap j).st with
  | valid =>
    have := hok.2.2 hst
    unfold Path.isValid at hn
    rw [hn] at this; cases this
  | needed n =>
    refine Or.inl ?_
    intro room data full now hroom
    unfold Path.writeFrames
    dsimp only
    rw [if_neg (by omega)]
    rw [if_neg (by rintro ⟨h1, h2⟩; rw [if_pos h1] at h2; omega)]
    rw [hst]
  | probing n d m s =>
    refine Or.inr (Or.inl fun pto => ⟨s + pto, ?_⟩)
    unfold Path.nextTimeout; rw [hst]
  | failed =>
    refine Or.inr (Or.inr fun now pto => ?_)
    have : (h.c.heap j).reprobe now pto = h.c.heap j := by unfold Path.reprobe; rw [hst]
    rw [this]
    unfold Path.viable; rw [hst]

-- The server's new path awaits the answer to its first challenge; after a timeout, it wants to send
-- the second.
example : let h := Hist.after false serverMigrating
    (h.c.heap 1).isValid = false ∧ (h.c.heap 1).nextTimeout 30 = some 41 ∧
    ((Hist.after false (serverMigrating ++ [.timer 41 30])).c.heap 1).st = .needed 1 := by
  decide +kernel

/-- What happens to a path whose challenges are not answered. -/
inductive POp where
  | write (room data : Nat) (full : Bool) (now : Nat)
  | timer (now pto : Nat)
  | ecn (e : Ecn)

/-- Do it, and count the challenges sent. -/
def POp.run (p : Path) : POp → Path × Nat
  | .write room data full now =>
    ((p.writeFrames room data full now).1,
      if (p.writeFrames room data full now).2.2.isSome then 1 else 0)
  | .timer now pto => (p.reprobe now pto, 0)
  | .ecn e => (if p.ecn.next e then { p with ecn := e } else p, 0)

/-- Do it all. -/
def runOps (p : Path) : List POp → Path × Nat
  | [] => (p, 0)
  | o :: l => ((runOps (o.run p).1 l).1, (o.run p).2 + (runOps (o.run p).1 l).2)

/-- How many more challenges an ECN state allows for. -/
def Ecn.spare : Ecn → Nat
  | .notStarted | .failed => 0
  | _ => 3

/-- How many more challenges will be sent at most. -/
def Path.budget (p : Path) : Nat :=
  match p.st with
  | .needed n => (3 - n) + p.ecn.spare
  | .probing n _ _ _ => (2 - n) + p.ecn.spare
  | _ => 0

theorem Ecn.spare_next {a b : Ecn} (h : a.next b = true) : b.spare ≤ a.spare := by
  cases a <;> cases b <;> first | decide | cases h

theorem Ecn.spare_marking {a : Ecn} (h : a.marking = true) : a.spare = 3 := by
  cases a <;> first | rfl | (exact absurd h (by decide))

theorem probe_eq {p : Path} {n d s : Nat} {m : Bool} (h : p.st = .probing n d m s) :
    p.probe = if 3 ≤ n + 1 then
      if p.ecn.marking then { p with ecn := .failed, st := .needed 0 } else { p with st := .failed }
      else { p with st := .needed (n + 1) } := by
  unfold Path.probe Path.probeCount
  rw [h]
  rfl

theorem POp.run_budget {p : Path} (hok : PathOk p) (hn : p.st ≠ .valid) (o : POp) :
    PathOk (o.run p).1 ∧ (o.run p).1.st ≠ .valid ∧ (o.run p).2 + (o.run p).1.budget ≤ p.budget := by
  cases o with
  | write room data full now =>
    obtain ⟨_, _, _, w4, _, w6⟩ := writeFrames_facts hok room data full now
    have hecn : (p.writeFrames room data full now).1.ecn = p.ecn := by
      unfold Path.writeFrames
      dsimp only
      generalize (if p.challenge.isSome = true then room - 9 else room) = room'
      split
      · rfl
      · split
        · rfl
        · split <;> rfl
    refine ⟨w4, ?_, ?_⟩
    · show (p.writeFrames room data full now).1.st ≠ _
      rcases w6 with ⟨_, h2⟩ | ⟨n, h1, h2, h3⟩
      · rw [h2]; exact hn
      · rw [h3]; intro h; cases h
    · show (if (p.writeFrames room data full now).2.2.isSome then 1 else 0) +
        (p.writeFrames room data full now).1.budget ≤ _
      unfold Path.budget
      rw [hecn]
      rcases w6 with ⟨h1, h2⟩ | ⟨n, h1, h2, h3⟩
      · rw [h1, h2]
        rw [if_neg (by decide)]
        omega
      · rw [h1, h2, h3, if_pos (by rfl : (some data).isSome = true)]
        have := hok.1 n h1
        dsimp only
        omega
  | timer now pto =>
    show PathOk (p.reprobe now pto) ∧ (p.reprobe now pto).st ≠ .valid ∧
      0 + (p.reprobe now pto).budget ≤ _
    unfold Path.reprobe
    split
    · rename_i n d m s hst
      split
      · refine ⟨hok.probe, ?_, ?_⟩
        · unfold Path.probe
          split
          · split <;> (intro h; cases h)
          · intro h; cases h
        · have hlt := hok.2.1 n d m s hst
          rw [probe_eq hst]
          by_cases h3 : 3 ≤ n + 1
          · rw [if_pos h3]
            by_cases hm : p.ecn.marking = true
            · rw [if_pos hm]
              unfold Path.budget
              rw [hst]
              dsimp only
              have := Ecn.spare_marking hm
              have : Ecn.failed.spare = 0 := rfl
              omega
            · rw [if_neg hm]; unfold Path.budget; dsimp only; omega
          · rw [if_neg h3]
            unfold Path.budget
            rw [hst]
            dsimp only
            omega
      · exact ⟨hok, hn, by omega⟩
    · exact ⟨hok, hn, by omega⟩
  | ecn e =>
    show PathOk (if p.ecn.next e then { p with ecn := e } else p) ∧
      (if p.ecn.next e then { p with ecn := e } else p : Path).st ≠ .valid ∧
      0 + (if p.ecn.next e then { p with ecn := e } else p : Path).budget ≤ _
    split
    · rename_i he
      refine ⟨hok, hn, ?_⟩
      have := Ecn.spare_next he
      unfold Path.budget
      dsimp only
      cases p.st <;> dsimp only <;> omega
    · exact ⟨hok, hn, by omega⟩

theorem runOps_budget {p : Path} (hok : PathOk p) (hn : p.st ≠ .valid) (l : List POp) :
    PathOk (runOps p l).1 ∧ (runOps p l).1.st ≠ .valid ∧
    (runOps p l).2 + (runOps p l).1.budget ≤ p.budget := by
  induction l generalizing p with
  | nil => exact ⟨hok, hn, by show 0 + p.budget ≤ _; omega⟩
  | cons o l ih =>
    obtain ⟨h1, h2, h3⟩ := POp.run_budget hok hn o
    obtain ⟨h4, h5, h6⟩ := ih h1 h2
    refine ⟨h4, h5, ?_⟩
    show (o.run p).2 + (runOps (o.run p).1 l).2 + (runOps (o.run p).1 l).1.budget ≤ _
    omega

/-- Without an answer, at most six challenges are sent on a path: three, and another three without
ECN marks if packets were marked.  And it does not become valid. -/
theorem C55_at_most_six (p : Path) (hp : p.st = .needed 0) (l : List POp) :
    (runOps p l).2 ≤ 6 ∧ (runOps p l).1.st ≠ .valid ∧
    (p.ecn = .notStarted ∨ p.ecn = .failed → (runOps p l).2 ≤ 3) := by
  have hok : PathOk p := by
    refine ⟨fun n hn => ?_, fun n d m s hs => ?_, fun hs => ?_⟩
    · rw [hp] at hn
      obtain rfl := PSt.needed.inj hn
      omega
    · rw [hp] at hs; cases hs
    · rw [hp] at hs; cases hs
  obtain ⟨_, h2, h3⟩ := runOps_budget hok (by rw [hp]; intro h; cases h) l
  have hb : p.budget = 3 + p.ecn.spare := by unfold Path.budget; rw [hp]
  have hs : p.ecn.spare ≤ 3 := by cases p.ecn <;> decide
  refine ⟨by omega, h2, ?_⟩
  rintro (he | he) <;> · rw [he] at hb; have : p.budget = 3 := hb; omega

/-- A challenge is sent and not answered in time. -/
def unanswered (room data : Nat) (full : Bool) (t now pto : Nat) : List POp :=
  [.write room data full t, .timer now pto]

theorem runOps_append (p : Path) (a b : List POp) :
    (runOps p (a ++ b)).1 = (runOps (runOps p a).1 b).1 := by
  induction a generalizing p with
  | nil => rfl
  | cons o a ih => exact ih _

/-- After at most six challenges that are not answered in time, the path has failed. -/
theorem C55_gives_up (p : Path) (n : Nat) (hp : p.st = .needed n) (hn : n < 3)
    (rounds : List (Nat × Nat × Bool × Nat × Nat × Nat)) (h6 : 6 ≤ rounds.length)
    (hr : ∀ r ∈ rounds, 18 ≤ r.1 ∧ r.2.2.2.1 + r.2.2.2.2.2 ≤ r.2.2.2.2.1) :
    (runOps p (rounds.flatMap (fun r =>
      unanswered r.1 r.2.1 r.2.2.1 r.2.2.2.1 r.2.2.2.2.1 r.2.2.2.2.2))).1.st = .failed := by
  -- One round uses up one challenge, or the path has failed.
  have stays : ∀ (p : Path) (room data : Nat) (full : Bool) (t now pto : Nat), p.st = .failed →
      (runOps p (unanswered room data full t now pto)).1.st = .failed := by
    intro p room data full t now pto hf
    have hw : (p.writeFrames room data full t).1.st = .failed := by
      unfold Path.writeFrames
      dsimp only
      generalize (if p.challenge.isSome = true then room - 9 else room) = room'
      split
      · exact hf
      · split
        · exact hf
        · rw [hf]
    show ((p.writeFrames room data full t).1.reprobe now pto).st = .failed
    have : (p.writeFrames room data full t).1.reprobe now pto = (p.writeFrames room data full t).1 := by
      unfold Path.reprobe; rw [hw]
    rw [this]; exact hw
  have one : ∀ (p : Path) (n room data : Nat) (full : Bool) (t now pto : Nat), p.st = .needed n →
      n < 3 → 18 ≤ room → t + pto ≤ now →
      (runOps p (unanswered room data full t now pto)).1.st = .failed ∨
      ∃ m, m < 3 ∧ (runOps p (unanswered room data full t now pto)).1.st = .needed m ∧
        (runOps p (unanswered room data full t now pto)).1.budget + 1 ≤ p.budget := by
    intro p n room data full t now pto hp hn hroom hnow
    have hw : (p.writeFrames room data full t).1 =
        { p with challenge := none, st := .probing n data full t } := by
      unfold Path.writeFrames
      dsimp only
      rw [if_neg (by omega)]
      rw [if_neg (by rintro ⟨h1, h2⟩; rw [if_pos h1] at h2; omega)]
      rw [hp]
    show ((p.writeFrames room data full t).1.reprobe now pto).st = .failed ∨
      ∃ m, m < 3 ∧ ((p.writeFrames room data full t).1.reprobe now pto).st = .needed m ∧
        ((p.writeFrames room data full t).1.reprobe now pto).budget + 1 ≤ p.budget
    rw [hw]
    have hre : ({ p with challenge := none, st := .probing n data full t } : Path).reprobe now pto =
        ({ p with challenge := none, st := .probing n data full t } : Path).probe := by
      unfold Path.reprobe
      dsimp only
      rw [if_pos hnow]
    rw [hre]
    rw [probe_eq (n := n) (d := data) (m := full) (s := t) rfl]
    dsimp only
    by_cases h3 : 3 ≤ n + 1
    · rw [if_pos h3]
      by_cases hm : p.ecn.marking = true
      · rw [if_pos hm]
        refine Or.inr ⟨0, by omega, rfl, ?_⟩
        unfold Path.budget
        rw [hp]
        dsimp only
        have := Ecn.spare_marking hm
        have : Ecn.failed.spare = 0 := rfl
        omega
      · rw [if_neg hm]
        exact Or.inl rfl
    · rw [if_neg h3]
      refine Or.inr ⟨n + 1, by omega, rfl, ?_⟩
      unfold Path.budget
      rw [hp]
      dsimp only
      omega
  have main : ∀ (rounds : List (Nat × Nat × Bool × Nat × Nat × Nat)) (p : Path),
      (∀ r ∈ rounds, 18 ≤ r.1 ∧ r.2.2.2.1 + r.2.2.2.2.2 ≤ r.2.2.2.2.1) →
      (p.st = .failed ∨ ∃ n, p.st = .needed n ∧ n < 3 ∧ p.budget ≤ rounds.length) →
      (runOps p (rounds.flatMap (fun r =>
        unanswered r.1 r.2.1 r.2.2.1 r.2.2.2.1 r.2.2.2.2.1 r.2.2.2.2.2))).1.st = .failed := by
    intro rounds
    induction rounds with
    | nil =>
      intro p _ h
      rcases h with h | ⟨n, h1, h2, h3⟩
      · exact h
      · unfold Path.budget at h3
        rw [h1] at h3
        have h3 : (3 - n) + p.ecn.spare ≤ 0 := h3
        omega
    | cons r rounds ih =>
      intro p hr h
      rw [List.flatMap_cons, runOps_append]
      refine ih _ (fun x hx => hr x (List.mem_cons_of_mem _ hx)) ?_
      obtain ⟨hr1, hr2⟩ := hr r List.mem_cons_self
      rcases h with h | ⟨n, h1, h2, h3⟩
      · exact Or.inl (stays _ _ _ _ _ _ _ h)
      · rcases one p n r.1 r.2.1 r.2.2.1 r.2.2.2.1 r.2.2.2.2.1 r.2.2.2.2.2 h1 h2 hr1 hr2 with
          h4 | ⟨m, h4, h5, h6⟩
        · exact Or.inl h4
        · refine Or.inr ⟨m, h5, h4, ?_⟩
          rw [List.length_cons] at h3
          omega
  refine main rounds p hr (Or.inr ⟨n, hp, hn, ?_⟩)
  have hb : p.budget = (3 - n) + p.ecn.spare := by unfold Path.budget; rw [hp]
  have hs : p.ecn.spare ≤ 3 := by cases p.ecn <;> decide
  omega

-- Without marks three are enough, with marks it takes six.
example : let p := Path.temporary 1 2 1200
    let rounds := (List.range 6).map (fun k => (18, k, true, 10 * k, 10 * k + 5, 5))
    let f := fun (r : Nat × Nat × Bool × Nat × Nat × Nat) =>
      unanswered r.1 r.2.1 r.2.2.1 r.2.2.2.1 r.2.2.2.2.1 r.2.2.2.2.2
    (runOps p (rounds.flatMap f)).2 = 3 ∧
    (runOps { p with ecn := .testing } (rounds.flatMap f)).2 = 6 ∧
    (runOps { p with ecn := .testing } ((rounds.take 5).flatMap f)).1.st = .needed 2 := by
  decide +kernel

/-- Challenges that go unanswered on path 1, at these times. -/
def silence (k : Nat) : List Ev :=
  (List.range k).flatMap (fun n => [.timer (30 * n + 50) 30, .write 100 (200 + n) true (30 * n + 50)])

/-- The timer drops every path that has failed; if that was the one in use, a valid path takes its
place, and without one the connection closes. -/
theorem C55_failed_path_replaced {client : Bool} {h : Hist} {now pto : Nat} {p : Nat}
    (hr : Hist.Reached client h) (hl : h.Legal (.timer now pto)) (hp : h.c.primary = some p)
    (hf : ((h.c.heap p).reprobe now pto).st = .failed) :
    (∃ h' q, h.step (.timer now pto) = .ok h' ∧ h'.c.primary = some q ∧ q ≠ p ∧
      (h'.c.heap q).isValid = true ∧ p ∉ h'.c.paths) ∨
    (h.step (.timer now pto) = .error .noAvailablePath ∧
      ∀ j ∈ h.c.paths, (h.c.heap j).isValid = true →
        ((h.c.heap j).reprobe now pto).viable now pto = false) := by
  have hi := hr.hi.1
  obtain ⟨l, hpl⟩ := hi.inv.primary_mem hp
  obtain ⟨_, hpp, _⟩ := hi.inv.prim p l hpl
  have hpm : p ∈ h.c.paths := by rw [hpl]; exact List.mem_cons_self
  have hgood := Hist.step_good hi hl
  have hnv : ((h.c.heap p).reprobe now pto).viable now pto = false := by unfold Path.viable; rw [hf]
  let hp' : Nat → Path := fun i =>
    if h.c.paths.contains i then (h.c.heap i).reprobe now pto else h.c.heap i
  have hin : ∀ j ∈ h.c.paths, hp' j = (h.c.heap j).reprobe now pto := by
    intro j hj
    exact if_pos (List.contains_iff_mem.mpr hj)
  let v : Nat → Bool := fun i => (hp' i).viable now pto
  have hvp : v p = false := by
    show (hp' p).viable now pto = false
    rw [hin p hpm]; exact hnv
  let c1 : Conn := { h.c with
    heap := hp'
    paths := h.c.paths.filter v
    toRetire := h.c.toRetire ++ (h.c.paths.filter (fun i => !v i)).flatMap (fun i => (hp' i).retired) }
  have hany : (h.c.paths.filter (fun i => !v i)).any (fun i => (hp' i).primary) = true := by
    refine List.any_eq_true.mpr ⟨p, List.mem_filter.mpr ⟨hpm, ?_⟩, ?_⟩
    · simp only [hvp, Bool.not_false]
    · rw [hin p hpm, (Mild.reprobe (hi.inv.ok p) now pto).primary]; exact hpp
  have hstep : h.c.step (.timer now pto) =
      match c1.paths.reverse.find? (fun i => (c1.heap i).isValid) with
      | some f => ({ c1 with primary := none } : Conn).selectPrimary f
      | none => .error .noAvailablePath := by
    show (if (h.c.paths.filter (fun i => !v i)).any (fun i => (hp' i).primary) then
      (match c1.paths.reverse.find? (fun i => (c1.heap i).isValid) with
        | some f => ({ c1 with primary := none } : Conn).selectPrimary f
        | none => .error .noAvailablePath)
      else .ok c1) = _
    rw [if_pos hany]
  cases hfind : c1.paths.reverse.find? (fun i => (c1.heap i).isValid) with
  | none =>
    rw [hfind] at hstep
    refine Or.inr ⟨?_, ?_⟩
    · unfold Hist.step; rw [hstep]
    · intro j hj hv
      have hx := List.find?_eq_none.mp hfind j
      rw [List.mem_reverse] at hx
      cases hvj : v j with
      | false =>
        have : (hp' j).viable now pto = false := hvj
        rw [hin j hj] at this; exact this
      | true =>
        have := hx (List.mem_filter.mpr ⟨hj, hvj⟩)
        refine absurd ?_ this
        show (hp' j).isValid = true
        rw [hin j hj, reprobe_valid]; exact hv
  | some f =>
    rw [hfind] at hstep
    have hfm := List.mem_reverse.mp (List.mem_of_find?_eq_some hfind)
    have hfv := List.find?_some hfind
    have hstep : h.c.step (.timer now pto) = ({ c1 with primary := none } : Conn).selectPrimary f :=
      hstep
    -- `selectPrimary` succeeds.
    have hsel : ∃ c2, ({ c1 with primary := none } : Conn).selectPrimary f = .ok c2 ∧
        c2.primary = some f ∧ c2.paths = swapFront f c1.paths ∧
        (c2.heap f).isValid = true := by
      unfold Conn.selectPrimary Conn.clearOld
      simp only [bind, Except.bind]
      rw [if_pos (List.contains_iff_mem.mpr hfm)]
      have hcf : ¬ (c1.heap f).cid.isNone = true := by
        have := hi.inv.cids f (List.mem_filter.mp hfm).1
        show ¬ (hp' f).cid.isNone = true
        rw [hin f (List.mem_filter.mp hfm).1, (Mild.reprobe (hi.inv.ok f) now pto).cid]
        cases hx : (h.c.heap f).cid with
        | none => rw [hx] at this; cases this
        | some e => simp
      rw [if_neg hcf]
      refine ⟨_, rfl, rfl, rfl, ?_⟩
      show (upd c1.heap f _ f).isValid = true
      rw [upd_same]
      exact hfv
    obtain ⟨c2, e1, e2, e3, e4⟩ := hsel
    rw [e1] at hstep
    have hnd : (h.c.paths.filter v).Nodup := hi.inv.nodup.filter _
    have hpn : p ∉ c1.paths := by
      intro hx
      have := (List.mem_filter.mp hx).2
      rw [hvp] at this; cases this
    refine Or.inl ⟨_, f, by unfold Hist.step; rw [hstep], e2, ?_, e4, ?_⟩
    · rintro rfl; exact hpn hfm
    · show p ∉ c2.paths
      rw [e3]
      intro hx
      exact hpn ((swapFront_perm hfm hnd).mem_iff.mp hx)

/-- A server's client moves and then does not answer, the last timer still to come: the server goes
back to the first path if that is valid. -/
def serverLeft : List Ev := serverMigrating ++ [.recv 2 1 1200 50 20 [.response 56] .nothing,
  .recv 2 8 1200 50 20 [] .app] ++ [.write 100 56 true 21,
  .recv 2 1 1200 50 22 [.response 56] .nothing]

-- The timer that finds the third challenge unanswered drops the path at once.
example : let h := Hist.after false (serverLeft ++ silence 2)
    h.c.primary = some 1 ∧ ((h.c.heap 1).reprobe 110 30).st = .failed ∧
    (h.step (.timer 110 30)).toOption.map (fun h' => (h'.c.primary, h'.c.paths)) =
      some (some 0, [0]) := by
  decide +kernel

/-- A path is given up though each challenge sent on it is answered, if each answer takes longer
than the timer: only the answer to the last challenge counts.  RFC 9000 has an answer count for any
challenge (section 8.2.3). -/
theorem C55_slow_path_abandoned : ∃ l,
    let h := Hist.after true l
    h.seen.chal 1 = [202, 201, 55] ∧ 1 ∉ h.c.paths ∧
    (∀ d ∈ h.seen.chal 1, ∃ now, Ev.recv 7 2 1200 50 now [.response d] .nothing ∈ l) :=
  ⟨clientMigrating ++ [.ecn 1 .failed, .timer 100 30, .write 100 201 true 100,
    .recv 7 2 1200 50 101 [.response 55] .nothing, .timer 200 30, .write 100 202 true 200,
    .recv 7 2 1200 50 201 [.response 201] .nothing, .timer 300 30,
    .recv 7 2 1200 50 301 [.response 202] .nothing],
    by
      refine ⟨by decide +kernel, by decide +kernel, ?_⟩
      have : (Hist.after true (clientMigrating ++ [.ecn 1 .failed, .timer 100 30, .write 100 201 true 100,
        .recv 7 2 1200 50 101 [.response 55] .nothing, .timer 200 30, .write 100 202 true 200,
        .recv 7 2 1200 50 201 [.response 201] .nothing, .timer 300 30,
        .recv 7 2 1200 50 301 [.response 202] .nothing])).seen.chal 1 = [202, 201, 55] := by
        decide +kernel
      rw [this]
      intro d hd
      simp only [List.mem_cons, List.not_mem_nil, or_false] at hd
      rcases hd with rfl | rfl | rfl
      · exact ⟨301, by decide +kernel⟩
      · exact ⟨201, by decide +kernel⟩
      · exact ⟨101, by decide +kernel⟩⟩

/-- A PATH_CHALLENGE on a new path closes the connection of a peer that has no connection ID to
spare, though the sender cannot know that it has none. -/
theorem C55_challenge_without_cid_closes : ∃ h e, Hist.Reached false h ∧ h.Legal e ∧
    e = .recv 2 8 1200 100 10 [.challenge 33] .nothing ∧
    h.step e = .error .invalidMigration :=
  ⟨Hist.after false [.start 2 1 1200 1200 [10] 100 0, .recv 2 1 1200 100 3 [] .handshake, .connected 5],
    _, Hist.after_reached _ _, by decide +kernel, rfl, rfl⟩

/-! ### C56: the set of paths -/

/-- At most 15 paths are in use; no two have the same pair of addresses; each has a connection ID
of the peer. -/
theorem C56_paths {client : Bool} {h : Hist} (hr : Hist.Reached client h) :
    h.c.paths.length ≤ 15 ∧ h.c.paths.Nodup ∧
    (∀ i ∈ h.c.paths, ∀ j ∈ h.c.paths, (h.c.heap i).loc = (h.c.heap j).loc →
      (h.c.heap i).rem = (h.c.heap j).rem → i = j) ∧
    ∀ i ∈ h.c.paths, ∃ e, (h.c.heap i).cid = some e := by
  have hi := hr.hi.1
  refine ⟨hi.inv.len, hi.inv.nodup, hi.addr, ?_⟩
  intro i him
  exact Option.isSome_iff_exists.mp (hi.inv.cids i him)

/-- From the first path on there is always exactly one primary path, and it is in use. -/
theorem C56_one_primary {client : Bool} {h : Hist} (hr : Hist.Reached client h)
    (hne : h.c.paths ≠ []) :
    ∃ p, h.c.primary = some p ∧ p ∈ h.c.paths ∧
      ∀ i ∈ h.c.paths, (h.c.heap i).primary = true ↔ i = p := by
  have hi := hr.hi.1
  cases hpl : h.c.paths with
  | nil => exact absurd hpl hne
  | cons p l =>
    obtain ⟨h1, h2, h3⟩ := hi.inv.prim p l hpl
    refine ⟨p, h1, List.mem_cons_self, ?_⟩
    intro i him
    rcases List.mem_cons.mp him with rfl | hil
    · exact ⟨fun _ => rfl, fun _ => h2⟩
    · constructor
      · intro hx; rw [h3 i hil] at hx; cases hx
      · rintro rfl; exact h2

example : let h := Hist.after false serverMigrating
    h.c.paths = [1, 0] ∧ h.c.primary = some 1 ∧ (h.c.heap 0).primary = false := by decide +kernel

/-- There always is a path to send on, and it is one in use. -/
theorem C56_send_path {client : Bool} {h : Hist} (hr : Hist.Reached client h)
    (hne : h.c.paths ≠ []) :
    ∃ i, h.c.selectPath = some i ∧ i ∈ h.c.paths ∧
      ((h.c.heap i).hasProbe = true ∨ h.c.primary = some i) := by
  obtain ⟨p, h1, h2, _⟩ := C56_one_primary hr hne
  unfold Conn.selectPath
  split
  · rename_i i hx
    exact ⟨i, rfl, List.mem_of_find?_eq_some hx, Or.inl (List.find?_some (p := fun i => (h.c.heap i).hasProbe) hx)⟩
  · exact ⟨p, h1, h2, Or.inr h1⟩

example : (Hist.after false serverMigrating).c.selectPath = some 0 ∧
    (Hist.after true (clientUp ++ [.migrate 7 2 1200 false 10])).c.selectPath = some 1 := by
  decide +kernel

/-- No event makes an assertion fail. -/
theorem C56_no_panic {client : Bool} {h : Hist} {e : Ev} (hr : Hist.Reached client h)
    (hl : h.Legal e) : h.step e ≠ .error .panic :=
  (Hist.step_good hr.hi.1 hl).2

/-- An event that does not close the connection leaves it with a path. -/
theorem C56_path_remains {client : Bool} {h h' : Hist} {e : Ev} (hr : Hist.Reached client h)
    (hl : h.Legal e) (hs : h.step e = .ok h') (hne : h.c.paths ≠ []) : h'.c.paths ≠ [] :=
  ((Hist.step_good hr.hi.1 hl).1 h' hs).ne hne

/-! ### C34: the peer's connection IDs -/

/-- The sequence numbers of the connection IDs that are waiting to be used and in use. -/
def Conn.waiting (c : Conn) : List Nat := c.store.map (·.seq)

/-- Every connection ID that was taken in is waiting, in use on exactly one path, or given up;
counted as often as it was taken in. -/
theorem C34_accounted {client : Bool} {h : Hist} (hr : Hist.Reached client h) :
    h.seen.added.Perm (h.c.waiting ++ h.c.paths.flatMap (fun i => match (h.c.heap i).cid with
      | some e => if e.cid = [] then [] else [e.seq]
      | none => []) ++ h.seen.retired) :=
  hr.hi.1.acct

example : let h := Hist.after false (serverMigrating ++
      [.recv 2 8 1200 100 12 [.newCid ⟨3, [13], 103⟩ 2] .app, .sendRetire])
    h.seen.added = [3, 1, 2, 0] ∧ h.c.waiting = [] ∧ h.seen.retired = [1, 0] ∧
    h.c.paths.map (fun i => (h.c.heap i).cid.map (·.seq)) = [some 2, some 3] ∧
    h.c.toRetire = [1] ∧ h.seen.out = [0] := by
  decide +kernel

/-- A connection ID that was given up is in a RETIRE_CONNECTION_ID frame yet to be sent, in one in
flight, or one that was acknowledged; and no other is. -/
theorem C34_retirement_is_sent {client : Bool} {h : Hist} (hr : Hist.Reached client h) (q : Nat) :
    q ∈ h.seen.retired ↔ q ∈ h.c.toRetire ∨ q ∈ h.seen.out ∨ q ∈ h.seen.acked :=
  hr.hi.1.queue q

/-- At most seven connection IDs wait to be used. -/
theorem C34_store_bounded {client : Bool} {h : Hist} (hr : Hist.Reached client h) :
    h.c.store.length ≤ 7 :=
  Nat.le_of_lt_succ hr.hi.1.store

theorem nodup_flatMap_ne {f : Nat → List Nat} {l : List Nat} (h : (l.flatMap f).Nodup)
    (hl : l.Nodup) {i j : Nat} (hi : i ∈ l) (hj : j ∈ l) (hne : i ≠ j) {x : Nat} (h1 : x ∈ f i) :
    x ∉ f j := by
  induction l with
  | nil => cases hi
  | cons a l ih =>
    rw [List.flatMap_cons, List.nodup_append] at h
    obtain ⟨_, h3, h4⟩ := h
    rw [List.nodup_cons] at hl
    intro h2
    rcases List.mem_cons.mp hi with rfl | hi <;> rcases List.mem_cons.mp hj with rfl | hj
    · exact hne rfl
    · exact h4 x h1 x (List.mem_flatMap.mpr ⟨j, hj, h2⟩) rfl
    · exact h4 x h2 x (List.mem_flatMap.mpr ⟨i, ‹i ∈ l›, h1⟩) rfl
    · exact ih h3 hl.2 hi hj h2

/-- If the peer never sends the same sequence number again once its connection ID was taken up,
then no two paths use the same one, none in use or waiting has been given up, and none is given up
twice.  (Missing: the peer may retransmit; see `C34_shared`.) -/
theorem C34_distinct_partial {client : Bool} {h : Hist} (hr : Hist.Reached client h)
    (hn : h.seen.added.Nodup) :
    h.seen.retired.Nodup ∧ h.c.waiting.Nodup ∧
    (∀ q ∈ h.c.waiting, q ∉ h.seen.retired) ∧
    (∀ i ∈ h.c.paths, ∀ a, (h.c.heap i).cid = some a → a.cid ≠ [] →
      a.seq ∉ h.seen.retired ∧ a.seq ∉ h.c.waiting ∧
      ∀ j ∈ h.c.paths, i ≠ j → ∀ b, (h.c.heap j).cid = some b → b.cid ≠ [] → a.seq ≠ b.seq) := by
  have hp := (hr.hi.1.acct.nodup_iff).mp hn
  obtain ⟨h1, h2, h3⟩ := List.nodup_append.mp hp
  obtain ⟨h4, h5, h6⟩ := List.nodup_append.mp h1
  have hret : ∀ i a, (h.c.heap i).cid = some a → a.cid ≠ [] → a.seq ∈ (h.c.heap i).retired := by
    intro i a ha hne
    unfold Path.retired
    rw [ha]
    dsimp only
    rw [if_neg hne]
    exact List.mem_singleton.mpr rfl
  refine ⟨h2, h4, ?_, ?_⟩
  · intro q hq hqr
    exact h3 q (List.mem_append.mpr (Or.inl hq)) q hqr rfl
  · intro i hi a ha hne
    have hu : a.seq ∈ inUse h.c := List.mem_flatMap.mpr ⟨i, hi, hret i a ha hne⟩
    refine ⟨?_, ?_, ?_⟩
    · intro hq; exact h3 _ (List.mem_append.mpr (Or.inr hu)) _ hq rfl
    · intro hq; exact h6 _ hq _ hu rfl
    · intro j hj hij b hb hbne hab
      have := nodup_flatMap_ne h5 hr.hi.1.inv.nodup hi hj hij (hret i a ha hne)
      rw [hab] at this
      exact this (hret j b hb hbne)

example : (Hist.after false serverMigrating).seen.added.Nodup := by decide +kernel

theorem Conn.frames_append {c : Conn} {i now : Nat} {a : List PFrame} {f : PFrame} {c' : Conn}
    (h : c.frames i now (a ++ [f]) = .ok c') :
    ∃ c1, c.frames i now a = .ok c1 ∧ c1.frame i now f = .ok c' := by
  induction a generalizing c with
  | nil =>
    refine ⟨c, rfl, ?_⟩
    rw [List.nil_append, Conn.frames] at h
    cases hf : c.frame i now f with
    | error e => rw [hf] at h; cases h
    | ok c1 => rw [hf] at h; exact h
  | cons g a ih =>
    rw [List.cons_append, Conn.frames] at h
    rw [Conn.frames]
    cases hf : c.frame i now g with
    | error e => rw [hf] at h; cases h
    | ok c1 => rw [hf] at h; exact ih h

/-- After a NEW_CONNECTION_ID frame, no connection ID below its Retire Prior To is waiting or in
use, and at most 16 retirements wait to be sent. -/
theorem C34_retire_prior {client : Bool} {h h' : Hist} {loc rem mtu len now : Nat}
    {fs : List PFrame} {e : Entry} {rp : Nat} (hr : Hist.Reached client h)
    (hl : h.Legal (.recv loc rem mtu len now (fs ++ [.newCid e rp]) .nothing))
    (hs : h.step (.recv loc rem mtu len now (fs ++ [.newCid e rp]) .nothing) = .ok h') :
    (∀ x ∈ h'.c.store, rp ≤ x.seq) ∧
    (∀ j ∈ h'.c.paths, ∃ x, (h'.c.heap j).cid = some x ∧ (x.cid = [] ∨ rp ≤ x.seq)) ∧
    h'.c.toRetire.length ≤ 16 := by
  obtain ⟨hne, hok, _⟩ := hl
  have hi := hr.hi.1
  have ff := Conn.findPath_found hi.inv loc rem mtu
  have h0 := hi.found ff
  let r := h.c.findPath loc rem mtu
  let i := r.2
  let g : Path → Path := fun p => { p with received := p.received + len }
  let c1 := r.1.modify i g
  have mg : Mild (r.1.heap i) (g (r.1.heap i)) :=
    ⟨rfl, rfl, rfl, ff.inv.ok i, fun _ _ _ _ h => h, fun h => h, ⟨rfl, rfl⟩⟩
  have p1 : FP h.seen.chal (fun _ => False) i [] [] r.1 c1 :=
    FP.modify ff.inv ff.avail h0.waits mg (fun hv => Or.inl hv)
  have hne1 : c1.paths ≠ [] := p1.ne (by rw [ff.paths]; exact hne)
  have hfr : c1.frames i now (fs ++ [.newCid e rp]) = .ok h'.c := by
    unfold Hist.step at hs
    cases hc : h.c.step (.recv loc rem mtu len now (fs ++ [.newCid e rp]) .nothing) with
    | error x => rw [hc] at hs; cases hs
    | ok c' =>
      rw [hc] at hs
      have hs := Except.ok.inj hs
      rw [← hs]
      have hc : (do
        let c ← c1.frames i now (fs ++ [.newCid e rp])
        .ok c : Except Err Conn) = .ok c' := hc
      cases hx : c1.frames i now (fs ++ [.newCid e rp]) with
      | error x => rw [hx] at hc; cases hc
      | ok c3 => rw [hx] at hc; exact hc
  obtain ⟨c2, e1, e2⟩ := Conn.frames_append hfr
  have p2 := (Conn.frames_good (cause := fun _ => True) p1.inv p1.avail p1.waits hne1 now fs
    (fun f hf => hok f (List.mem_append.mpr (Or.inl hf))) (fun _ _ _ _ => trivial)).1 c2 e1
  have := (Conn.newConnectionId_good (cause := fun _ => True) p2.inv p2.avail p2.waits
    (hok (.newCid e rp) (List.mem_append.mpr (Or.inr (List.mem_singleton.mpr rfl))))).1 h'.c e2
  exact ⟨this.2.1, this.2.2.1, this.2.2.2.2⟩

-- The one in use on the first path is replaced and retired, the one waiting is retired.
example : let h := Hist.after true clientUp
    let e := Ev.recv 1 2 1200 100 12 ([] ++ [.newCid ⟨3, [13], 103⟩ 2]) .nothing
    h.Legal e ∧ (h.step e).toOption.map (fun h' => (h'.c.waiting, h'.c.toRetire)) =
      some ([3], [1, 0]) := by
  decide +kernel

/-- A NEW_CONNECTION_ID frame that shares its sequence number, its connection ID or its reset token
with one that is waiting, but is not the same, is a protocol violation.  (Missing: one that shares
them with a connection ID in use or given up; see `C34_reused_number_accepted`.) -/
theorem C34_conflict_rejected_partial (c : Conn) (i now : Nat) (e x : Entry) (rp : Nat)
    (hx : x ∈ c.store) (hd : c.store.all (fun y => decide (y ≠ e)) = true)
    (hs : x.seq = e.seq ∨ x.cid = e.cid ∨ x.srt = e.srt) :
    c.frame i now (.newCid e rp) = .error .protocolViolation := by
  show c.newConnectionId e rp = _
  unfold Conn.newConnectionId addRemote
  rw [if_neg, if_pos]
  · rfl
  · refine List.any_eq_true.mpr ⟨x, hx, ?_⟩
    unfold Entry.anyPartEqual
    simp only [Bool.or_eq_true, decide_eq_true_eq]
    rcases hs with h | h | h
    · exact Or.inl (Or.inl h)
    · exact Or.inl (Or.inr h)
    · exact Or.inr h
  · intro hany
    obtain ⟨y, hy, he⟩ := List.any_eq_true.mp hany
    have := List.all_eq_true.mp hd y hy
    rw [decide_eq_true_eq] at he this
    exact this he

example : let c := (Hist.after true clientUp).c
    (⟨1, [11], 101⟩ : Entry) ∈ c.store ∧
    c.store.all (fun y => decide (y ≠ (⟨1, [14], 104⟩ : Entry))) = true := by
  decide +kernel

/-- A NEW_CONNECTION_ID frame that is retransmitted after its connection ID was taken into use makes
two paths use the same connection ID. -/
theorem C34_shared : ∃ h, Hist.Reached true h ∧
    h.c.paths.map (fun i => ((h.c.heap i).rem, (h.c.heap i).loc, (h.c.heap i).cid)) =
      [(2, 1, some ⟨0, [10], 100⟩), (2, 7, some ⟨1, [11], 101⟩), (2, 8, some ⟨1, [11], 101⟩)] :=
  ⟨_, Hist.after_reached true
    ([.start 1 2 1200 0 [10] 100 0, .connected 5,
      .recv 1 2 1200 100 6 [.newCid ⟨1, [11], 101⟩ 0] .app, .migrate 7 2 1200 false 10,
      .recv 1 2 1200 100 11 [.newCid ⟨1, [11], 101⟩ 0] .app, .migrate 8 2 1200 false 12]),
    by decide +kernel⟩

/-- And it makes a connection ID that was given up be used again, then given up again: a sequence
number is retired twice, the first retirement having been acknowledged. -/
theorem C34_retired_twice : ∃ h, Hist.Reached true h ∧
    h.seen.retired.count 1 = 2 ∧ 1 ∈ h.seen.acked ∧ 1 ∈ h.c.toRetire :=
  ⟨_, Hist.after_reached true
    ([.start 1 2 1200 0 [10] 100 0, .connected 5,
      .recv 1 2 1200 100 6 [.newCid ⟨1, [11], 101⟩ 0, .newCid ⟨2, [12], 102⟩ 2] .app, .sendRetire,
      .sendRetire, .ackRetire 0, .ackRetire 1,
      .recv 1 2 1200 100 11 [.newCid ⟨1, [11], 101⟩ 0] .app, .migrate 7 2 1200 true 12,
      .recv 1 2 1200 100 13 [.newCid ⟨3, [13], 103⟩ 3, .newCid ⟨4, [14], 104⟩ 3] .app]),
    by decide +kernel⟩

/-- A connection ID is taken in, and used, though an earlier frame asked for it to be retired.  RFC
9000 asks that it be retired at once (section 19.15). -/
theorem C34_below_retire_prior_used : ∃ h, Hist.Reached true h ∧
    (∃ l, h = Hist.after true l ∧
      Ev.recv 1 2 1200 100 6 [.newCid ⟨5, [15], 105⟩ 3] .app ∈ l) ∧
    h.c.paths.map (fun i => (h.c.heap i).cid.map (·.seq)) = [some 5, some 1] ∧
    1 ∉ h.seen.retired :=
  ⟨_, Hist.after_reached true
    ([.start 1 2 1200 0 [10] 100 0, .connected 5,
      .recv 1 2 1200 100 6 [.newCid ⟨5, [15], 105⟩ 3] .app,
      .recv 1 2 1200 100 7 [.newCid ⟨1, [11], 101⟩ 0] .app, .migrate 7 2 1200 false 12]),
    ⟨_, rfl, by decide +kernel⟩, by decide +kernel, by decide +kernel⟩

/-- A sequence number that is reused with another connection ID is accepted if the first one is
in use. -/
theorem C34_reused_number_accepted : ∃ h, Hist.Reached true h ∧
    h.c.paths.map (fun i => ((h.c.heap i).loc, (h.c.heap i).cid)) =
      [(1, some ⟨0, [10], 100⟩), (7, some ⟨1, [11], 101⟩), (8, some ⟨1, [99], 199⟩)] :=
  ⟨_, Hist.after_reached true
    ([.start 1 2 1200 0 [10] 100 0, .connected 5,
      .recv 1 2 1200 100 6 [.newCid ⟨1, [11], 101⟩ 0] .app, .migrate 7 2 1200 false 10,
      .recv 1 2 1200 100 11 [.newCid ⟨1, [99], 199⟩ 0] .app, .migrate 8 2 1200 false 12]),
    by decide +kernel⟩

end Neqo.Path
