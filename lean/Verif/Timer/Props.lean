import Verif.Timer.Model

/-!
# C98: a connection asks to be called in time, and only when there is something to do
-/
namespace Neqo.Timer

/-- After the key update timer was checked it is off or in the future. -/
theorem key_future {k k' : Keys.K} {now t : Nat} (h : k.checkKeyUpdate now = .ok k') (ht : k'.updTime = some t) : now < t := by
  unfold Keys.K.checkKeyUpdate at h
  split at h
  · injection h with h
    rw [← h] at ht
    rename_i hn
    rw [hn] at ht
    cases ht
  · rename_i u hu
    split at h
    · rename_i hlt
      injection h with h
      rw [← h, hu] at ht
      injection ht with ht
      omega
    · split at h
      · injection h with h
        rw [← h] at ht
        cases ht
      · split at h
        · cases h
        · injection h with h
          rw [← h] at ht
          cases ht

/-- After the probes of a path were checked, the next time is in the future. -/
theorem reprobe_future {p : Path.Path} {now pto pto' t : Nat} (hp : pto ≤ pto') (h : (p.reprobe now pto).nextTimeout pto' = some t) : now < t := by
  unfold Path.Path.reprobe at h
  split at h
  · rename_i n d f sent hst
    split at h
    · unfold Path.Path.probe at h
      split at h
      · split at h <;> cases h
      · cases h
    · unfold Path.Path.nextTimeout at h
      rw [hst] at h
      injection h with h
      omega
  · rename_i hno
    unfold Path.Path.nextTimeout at h
    split at h
    · rename_i n d f sent hst
      exact absurd hst (hno n d f sent)
    · cases h

theorem selectPrimary_st {c c' : Path.Conn} {i : Nat} (h : c.selectPrimary i = .ok c') : (∀ j, (c'.heap j).st = (c.heap j).st) ∧ ∀ j ∈ c'.paths, j ∈ c.paths := by
  unfold Path.Conn.selectPrimary at h
  obtain ⟨c1, h1, h⟩ := Except.bind_eq_ok.mp h
  have e1 : (∀ j, (c1.heap j).st = (c.heap j).st) ∧ c1.paths = c.paths := by
    unfold Path.Conn.clearOld at h1
    split at h1
    · injection h1 with h1; rw [← h1]; exact ⟨fun _ => rfl, rfl⟩
    · split at h1
      · cases h1
      · injection h1 with h1
        rw [← h1]
        refine ⟨fun j => ?_, rfl⟩
        unfold Path.Conn.modify Path.upd
        dsimp only
        split
        · rename_i hj; rw [hj]
        · rfl
  dsimp only at h
  split at h
  · rename_i hi
    split at h
    · cases h
    · injection h with h
      rw [← h]
      refine ⟨fun j => ?_, fun j hj => ?_⟩
      · rw [← e1.1 j]
        unfold Path.Conn.modify Path.upd
        dsimp only
        split
        · rename_i hj; rw [hj]
        · rfl
      · have hj : j ∈ Path.swapFront i c1.paths := hj
        rw [← e1.2]
        have hi : i ∈ c1.paths := List.contains_iff_mem.mp hi
        cases hl : c1.paths with
        | nil => rw [hl] at hi; cases hi
        | cons a l =>
          rw [hl] at hj hi
          have hj : j ∈ (if a = i then a :: l else i :: l.map (fun x => if x = i then a else x)) := hj
          split at hj
          · exact hj
          · rcases List.mem_cons.mp hj with rfl | hj
            · exact hi
            · obtain ⟨x, hx, hxj⟩ := List.mem_map.mp hj
              split at hxj
              · rw [← hxj]; exact List.mem_cons_self
              · rw [← hxj]; exact List.mem_cons_of_mem _ hx
  · injection h with h
    rw [← h]
    exact ⟨e1.1, fun j hj => by rw [← e1.2]; exact hj⟩

/-- After the timers of the paths were checked, all are in the future. -/
theorem paths_future {c c' : Path.Conn} {now pto pto' t : Nat} (hp : pto ≤ pto') (h : c.processTimeout now pto = .ok c') (ht : t ∈ pathTimes c' pto') : now < t := by
  obtain ⟨i, hi, hti⟩ := List.mem_filterMap.mp ht
  have key : (c'.heap i).st = ((c.heap i).reprobe now pto).st := by
    unfold Path.Conn.processTimeout at h
    dsimp only at h
    have hin : ∀ j, j ∈ c.paths.filter (fun i => ((if c.paths.contains i then (c.heap i).reprobe now pto else c.heap i)).viable now pto) → c.paths.contains j = true :=
      fun j hj => List.contains_iff_mem.mpr (List.mem_filter.mp hj).1
    split at h
    · split at h
      · obtain ⟨a, b⟩ := selectPrimary_st h
        rw [a i]
        dsimp only
        rw [if_pos (hin i (b i hi))]
      · cases h
    · injection h with h
      rw [← h] at hi ⊢
      dsimp only
      rw [if_pos (hin i hi)]
  have : ((c.heap i).reprobe now pto).nextTimeout pto' = some t := by
    unfold Path.Path.nextTimeout at hti ⊢
    rw [← key]
    exact hti
  exact reprobe_future hp this

/-- C98: after the timers were processed, each time that the connection waits for is in the future, apart from that of an
acknowledgement and that of the pacer, which output deals with; unless the probe timer has just fired, when a datagram
may be sent at once.  `pto'`, the probe timeout of the path that is primary afterwards, is not smaller than `pto`, that
of the one before. -/
theorem C98_timers_in_future_partial {m : Nat} {p p' : Parts} {now pto pto' : Nat} {hsKeys possible : Bool} (hr : Rec.Reached m p.loss) (hc : p.loss.clock ≤ now)
    (hp : p.process now pto hsKeys = some p') (hpto : pto ≤ pto') (ha : p.ack = none) (hpa : p.pace = none) {l : List Nat} (hl : p'.times now pto' possible = .ok l) :
    (∀ t ∈ l, now < t) ∨
    (p'.loss.s.ptoCount = p.loss.s.ptoCount + 1 ∧ ∀ amp pace, ∃ s q, p'.loss.s.sendProfile amp pace = .ok (s, q) ∧ q.pto = true ∧ q.limit = p'.loss.s.cc.mtu) := by
  unfold Parts.process at hp
  split at hp
  · cases hp
  · rename_i hidle
    split at hp
    · cases hp
    · rename_i k hk
      split at hp
      · cases hp
      · rename_i r o hrec
        split at hp
        · cases hp
        · rename_i c hpath
          injection hp with hp
          subst hp
          unfold Parts.times at hl
          dsimp only at hl
          split at hl
          · cases hl
          · rename_i lr hlr
            injection hl with hl
            have hbase : ∀ t, t ∈ l → now < t ∨ lr = some t := by
              intro t ht
              rw [← hl, ha, hpa] at ht
              simp only [List.mem_append, Option.mem_toList, List.mem_singleton] at ht
              rcases ht with (((((ht | ht) | ht) | ht) | ht) | ht) | ht
              · cases ht
              · left
                unfold Idle.Idle.expired Idle.Idle.expiry at hidle
                unfold Idle.Idle.expiry at ht
                simp only [decide_eq_true_eq] at hidle
                omega
              · left
                split at ht
                · rw [Option.mem_toList] at ht
                  unfold Idle.Idle.nextKeepAlive at ht
                  split at ht
                  · cases ht
                  · split at ht
                    · cases ht
                    · injection ht with ht; omega
                · cases ht
              · exact .inr ht
              · cases ht
              · left
                exact paths_future hpto hpath (List.min?_mem ht)
              · left
                exact key_future hk ht
            cases lr with
            | none =>
              left
              intro t ht
              rcases hbase t ht with h | h
              · exact h
              · cases h
            | some d =>
              rcases Rec.C98_after_call_future_or_probe hr (show Rec.Legal m p.loss (.timeout now hsKeys) from hc) hrec hlr with h | h
              · left
                intro t ht
                rcases hbase t ht with h' | h'
                · exact h'
                · injection h' with h'; omega
              · exact .inr h

/-- C98: the delay that a connection asks for does not let any of these times pass, and it is not zero if none of them has
come. -/
theorem C98_callback_in_time {c : Life.Conn} {now delay : Nat} {l : List Nat} (h1 : ∀ r t, c.st ≠ .closing r t) (h2 : ∀ r t, c.st ≠ .draining r t)
    (h : c.callback now l = some delay) : (∀ t ∈ l, now + delay ≤ max now t) ∧ ((∀ t ∈ l, now < t) → 0 < delay) ∧ ∃ t ∈ l, delay = t - now := by
  have hm : ∃ t, l.min? = some t ∧ delay = t - now := by
    unfold Life.Conn.callback at h
    split at h
    · cases h
    · cases h
    · rename_i r t hst; exact absurd hst (h1 r t)
    · rename_i r t hst; exact absurd hst (h2 r t)
    · obtain ⟨t, ht, e⟩ := Option.map_eq_some_iff.mp h
      exact ⟨t, ht, e.symm⟩
  obtain ⟨t, ht, e⟩ := hm
  obtain ⟨g1, g2⟩ := List.min?_eq_some_iff.mp ht
  refine ⟨fun u hu => ?_, fun hall => ?_, t, g1, e⟩
  · have := g2 u hu
    rw [Nat.max_def]
    split <;> omega
  · have := hall t g1
    omega

/-- C98: such a delay always exists, as the idle timer always runs. -/
theorem C98_always_a_callback {p : Parts} {now pto : Nat} {possible : Bool} {l : List Nat} (h : p.times now pto possible = .ok l) {c : Life.Conn}
    (h1 : c.st ≠ .init) (h2 : ∀ r, c.st ≠ .closed r) : ∃ delay, c.callback now l = some delay := by
  have hl : l ≠ [] := by
    unfold Parts.times at h
    split at h
    · cases h
    · injection h with h
      rw [← h]
      simp
  unfold Life.Conn.callback
  split
  · rename_i hst; exact absurd hst h1
  · rename_i r hst; exact absurd hst (h2 r)
  · exact ⟨_, rfl⟩
  · exact ⟨_, rfl⟩
  · cases hm : l.min? with
    | none => exact absurd (List.min?_eq_none_iff.mp hm) hl
    | some t => exact ⟨_, rfl⟩

/-! ## Examples -/

open Path in
/-- A client that moved to a path by force, which then does not work; while it probes that path for the third time its
application also asks for another one. -/
def failing : List Path.Ev :=
  clientUp ++ [.migrate 7 2 1200 true 10, .ecn 1 .failed, .write 100 55 true 11, .timer 111 100, .write 100 56 true 111, .timer 211 100, .write 100 57 true 211,
    .migrate 8 2 1200 false 290, .write 100 58 true 290]

/-- C98 fails if the primary path is given up for one with a smaller probe timeout: the time of a probe on another path,
which was in the future by the old timeout, is in the past by the new one, and the delay is zero. -/
theorem C98_failover_leaves_time_in_past : Path.Hist.Reached true (Path.Hist.after true failing) ∧ (Path.Hist.after true failing).Legal (.timer 311 100) ∧
    ∃ h', (Path.Hist.after true failing).step (.timer 311 100) = .ok h' ∧ (Path.Hist.after true failing).c.primary = some 1 ∧ h'.c.primary = some 0 ∧
      pathTimes h'.c 100 = [390] ∧ pathTimes h'.c 3 = [293] := by
  refine ⟨Path.Hist.after_reached _ _, by decide +kernel, ?_⟩
  have hd : (match (Path.Hist.after true failing).step (.timer 311 100) with
      | .ok h' => decide ((Path.Hist.after true failing).c.primary = some 1) && decide (h'.c.primary = some 0) && decide (pathTimes h'.c 100 = [390]) && decide (pathTimes h'.c 3 = [293])
      | .error _ => false) = true := by decide +kernel
  cases hs : (Path.Hist.after true failing).step (.timer 311 100) with
  | error e => rw [hs] at hd; cases hd
  | ok h' =>
    rw [hs] at hd
    simp only [Bool.and_eq_true, decide_eq_true_eq] at hd
    exact ⟨h', rfl, hd.1.1.1, hd.1.1.2, hd.1.2, hd.2⟩

/-- A connection that waits: two packets of which the second is acknowledged, an idle timeout of 30 s, one path. -/
def waiting : Option Parts :=
  Rec.timerRun.map fun r =>
    { idle := { timeout := 30000000000, state := .received 50000000, outstanding := false }, keepAlive := true, keys := Keys.K.init .aes128, loss := r
      paths := (Path.Hist.after true Path.clientUp).c, ack := none, pace := none }

/-- The idle timer, the loss timer and the keep-alive; processing too early changes nothing, and then the next time is that
of the loss. -/
example : (waiting.bind fun p => match p.times 50000000 1 true with | .ok l => some (l, l.min?) | .error _ => none) =
    some ([30050000000, 15050000000, 56250000], some 56250000) := by decide +kernel
example : (waiting.bind fun p => (p.process 56249999 1 false).bind fun q => match q.times 56249999 1 true with | .ok l => some l.min? | .error _ => none) =
    some (some 56250000) := by decide +kernel
/-- When that time has come the packet is lost, and the keep-alive is next. -/
example : (waiting.bind fun p => (p.process 56250000 1 false).bind fun q => match q.times 56250000 1 true with | .ok l => some l.min? | .error _ => none) =
    some (some 15050000000) := by decide +kernel
/-- The idle timeout closes the connection. -/
example : (waiting.map fun p => (p.process 30050000000 1 false).isNone) = some true := by decide +kernel

end Neqo.Timer
