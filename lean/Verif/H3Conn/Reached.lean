import Verif.H3Conn.Whole

/-! What holds of every state that can be reached. -/

namespace Neqo.H3c

/-- Sessions start at most once and streams are opened at most once. -/
def Once (c : C) : Prop := ∀ s, starts c s + neg c s ≤ opens c s ∧ opens c s ≤ 1

theorem Once.track {c c' : C} (h : Once c) (t : Track c c') : Once c' := by
  intro s
  obtain ⟨a, b⟩ := h s
  have := t.starts s
  have := t.opens s
  exact ⟨by omega, by omega⟩

theorem count_opened (c : C) (i s : Nat) :
    starts (c.emit (.opened i)) s = starts c s ∧
    opens (c.emit (.opened i)) s = opens c s + if s = i then 1 else 0 := by
  unfold starts opens C.emit
  dsimp only
  rw [List.count_append, List.count_append]
  refine ⟨by simp, ?_⟩
  by_cases h : s = i
  · subst h; simp
  · rw [if_neg h]
    have : List.count (Eff.opened s) [Eff.opened i] = 0 := by
      refine List.count_eq_zero.mpr ?_
      intro hm; rw [List.mem_singleton] at hm; cases hm; exact h rfl
    omega

theorem opens_zero {c : C} {i : Nat} (h : Eff.opened i ∉ c.log) : opens c i = 0 :=
  List.count_eq_zero.mpr h

theorem Once.emit {c : C} (h : Once c) {i : Nat} (hn : Eff.opened i ∉ c.log) :
    Once (c.emit (.opened i)) := by
  intro s
  obtain ⟨a, b⟩ := h s
  obtain ⟨e1, e2⟩ := count_opened c i s
  have e3 : neg (c.emit (.opened i)) s = neg c s := rfl
  rw [e1, e2, e3]
  split
  · rename_i e; subst e
    have := opens_zero hn
    exact ⟨by omega, by omega⟩
  · exact ⟨by omega, by omega⟩

theorem Once.opens {c c' : C} (h : Once c) {i : Nat} (o : Opens i c c') (hn : Eff.opened i ∉ c.log) :
    Once c' := by
  intro s
  obtain ⟨a, b⟩ := h s
  obtain ⟨e1, e2⟩ := count_opened c i s
  have e3 : starts c' s = starts c s := by rw [← e1]; unfold starts; rw [o.log]; rfl
  have e4 : H3c.opens c' s = H3c.opens c s + if s = i then 1 else 0 := by
    rw [← e2]; unfold H3c.opens; rw [o.log]; rfl
  have e5 := o.neg s
  rw [e3, e4]
  split
  · rename_i e; subst e
    have := opens_zero hn
    rw [if_pos rfl] at e5
    exact ⟨by omega, by omega⟩
  · rename_i e
    rw [if_neg e] at e5
    exact ⟨by omega, by omega⟩

/-- A step, whatever the event. -/
structure Big (c c' : C) (o : Prop) : Prop where
  role : c'.role = c.role
  once : Once c → Once c'
  forward : o → Forward c.st c'.st
  below : c.role = .client → Below c → Below c'

theorem Small.big {c c' : C} {o : Prop} (h : Small c c' o) : Big c c' o :=
  ⟨h.track.role, fun x => x.track h.track, h.forward, h.below⟩

theorem Opens.below {c c' : C} {i : Nat} (o : Opens i c c') : Below c' := by
  refine Below.of ?_
  intro g e
  rw [o.st] at e
  rcases o.state with h | h <;> rw [h] at e <;> cases e

theorem resume_shape (c : C) (s : Sets) (uni : Option Nat) :
    (resume c s uni).1.sess = c.sess ∧ (resume c s uni).1.role = c.role ∧
    (resume c s uni).1.recv = c.recv ∧
    ((resume c s uni).1.log = c.log ∨ (resume c s uni).1.log = c.log ++ [.state .zeroRtt]) ∧
    ((resume c s uni).1.st = c.st ∨ (c.st = .initializing ∧ (resume c s uni).1.st = .zeroRtt)) ∧
    (c.st ≠ .initializing → (resume c s uni).1 = c) := by
  unfold resume
  split
  · rename_i hs
    unfold openOwn
    cases uni with
    | none => exact ⟨rfl, rfl, rfl, Or.inl rfl, Or.inl rfl, fun e => absurd hs e⟩
    | some u =>
      dsimp only
      split
      · exact ⟨rfl, rfl, rfl, Or.inr rfl, Or.inr ⟨hs, rfl⟩, fun e => absurd hs e⟩
      · exact ⟨rfl, rfl, rfl, Or.inl rfl, Or.inl rfl, fun e => absurd hs e⟩
  · exact ⟨rfl, rfl, rfl, Or.inl rfl, Or.inl rfl, fun _ => rfl⟩

theorem keepId_big {c : C} {x : C × Except Err Nat} (hr : c.role = .client) (o : Prop)
    (h : Big c x.1 o) : Big c (keepId x) o := by
  obtain ⟨a, b, d⟩ := keepId_after x
  have hr' : x.1.role = .client := by rw [h.role]; exact hr
  exact ⟨a.role.trans h.role, fun w => (h.once w).track a,
    fun w => (h.forward w).trans (d hr').forward,
    fun e w => (d hr').below a hr' (h.below e w)⟩

theorem opens_big {c : C} {x : C × Except Err Nat} (hr : c.role = .client) (o : Prop)
    (h : x.1 = c ∨ ∃ i, Opens i c x.1 ∧ Eff.opened i ∉ c.log) : Big c (keepId x) o := by
  refine keepId_big hr o ?_
  rcases h with h | ⟨i, h, hn⟩
  · rw [h]; exact ⟨rfl, fun x => x, fun _ => Forward.refl _, fun _ h => h⟩
  · exact ⟨h.role, fun w => w.opens h hn, fun _ => Forward.of_eq h.st, fun _ _ => h.below⟩

theorem step_big {q : Bool} {c : C} (h : Inv q c) (e : Ev) (hf : Fits q c e) :
    Big c (step c e) (Orderly c e) := by
  by_cases hb : e.big = false
  · exact (step_small h e hf hb).big
  have R : Big c c (Orderly c e) := ⟨rfl, fun x => x, fun _ => Forward.refl _, fun _ h => h⟩
  unfold step
  by_cases hd : c.dead = true
  · rw [if_pos hd]; exact R
  rw [if_neg hd]
  cases e with
  | request w id bad =>
    dsimp only
    split
    · rename_i hr
      refine opens_big hr _ ?_
      rcases request_shape w id bad hf with x | ⟨i, rfl, x⟩
      · exact Or.inl x
      · exact Or.inr ⟨i, x, hf.2.2.2⟩
    · exact R
  | createSession udp id bad =>
    dsimp only
    split
    · rename_i hr
      refine opens_big hr _ ?_
      rcases createSession_shape udp id bad hf with x | ⟨i, rfl, x⟩
      · exact Or.inl x
      · exact Or.inr ⟨i, x, hf.2.2.2⟩
    · exact R
  | openStream sid id =>
    dsimp only
    obtain ⟨a, b, d⟩ := openStream_shape h sid id hf
    rw [keepId_same d]
    rcases a with a | ⟨i, rfl, a, _⟩
    · rw [a]; exact R
    · refine ⟨a.role, fun w => (w.emit hf.2.2.2).track a, fun _ => Forward.of_eq b, fun hr hbe => ?_⟩
      exact (show Below (c.emit (.opened i)) from hbe).track a hr b
  | resume s uni =>
    dsimp only
    split
    · rename_i hr
      obtain ⟨r1, r2, r3, r4, r5, _⟩ := resume_shape c s uni
      have K : Big c (resume c s uni).1 (Orderly c (.resume s uni)) := by
        refine ⟨r2, ?_, ?_, ?_⟩
        · intro w t
          obtain ⟨a, b⟩ := w t
          have e1 : neg (resume c s uni).1 t = neg c t := by unfold neg; rw [r1]
          have e2 : starts (resume c s uni).1 t = starts c t ∧
              opens (resume c s uni).1 t = opens c t := by
            unfold starts opens
            rcases r4 with x | x
            · rw [x]; exact ⟨rfl, rfl⟩
            · rw [x, List.count_append, List.count_append]; simp
          rw [e1, e2.1, e2.2]; exact ⟨a, b⟩
        · intro _
          rcases r5 with x | ⟨x, y⟩
          · exact Forward.of_eq x
          · rw [x, y]; exact ⟨by simp [St.rank], fun _ _ e => by cases e⟩
        · intro _ hbe
          rcases r5 with x | ⟨x, y⟩
          · cases hs : c.st with
            | initializing => exact Below.of (fun g e => by rw [x, hs] at e; cases e)
            | _ =>
              have := (resume_shape c s uni).2.2.2.2.2 (by rw [hs]; intro e; cases e)
              rw [this]; exact hbe
          · exact Below.of (fun g e => by rw [y] at e; cases e)
      unfold keep
      split
      · rename_i c1 hq; rw [hq] at K
        exact ⟨K.role, fun w => (K.once w).track (Track.setDead _), K.forward,
          fun x y => (K.below x y : Below c1)⟩
      · rename_i c1 _ hq; rw [hq] at K; exact K
    · exact R
  | zeroRttRejected =>
    dsimp only
    by_cases hc : c.st.closedNow = true
    · rw [if_pos hc]; exact R
    · rw [if_neg hc]
      unfold rejectZeroRtt
      split
      · exact ⟨(failWith_track c (.internal 4)).1.role,
          fun w => w.track (failWith_track c (.internal 4)).1,
          fun x => absurd x (fun x => x), fun hr => by rename_i e; rw [e] at hr; cases hr⟩
      · split
        · refine ⟨rfl, ?_, fun x => absurd x (fun x => x), fun _ _ => Below.of (fun g e => by cases e)⟩
          intro w s
          obtain ⟨a, b⟩ := w s
          have e1 : (c.log ++ [Eff.zeroRttRejected]).count (.sessionStart s) = starts c s := by
            unfold starts; rw [List.count_append]; simp
          have e2 : (c.log ++ [Eff.zeroRttRejected]).count (.opened s) = opens c s := by
            unfold opens; rw [List.count_append]; simp
          constructor
          · show (c.log ++ [Eff.zeroRttRejected]).count (.sessionStart s) + 0 ≤
              (c.log ++ [Eff.zeroRttRejected]).count (.opened s)
            omega
          · show (c.log ++ [Eff.zeroRttRejected]).count (.opened s) ≤ 1
            omega
        · exact ⟨rfl, fun w => w.track (Track.setDead _), fun _ => Forward.refl _, fun _ h => h⟩
  | _ => exact absurd rfl hb

theorem init_once (r : Role) (wt udp : Bool) : Once (init r wt udp) := by
  intro s; exact ⟨Nat.le_refl _, Nat.zero_le _⟩

theorem Reach.all {q : Bool} {r : Role} {wt udp : Bool} {c : C} (h : Reach q r wt udp c) :
    c.role = r ∧ Once c ∧ (r = .client → Below c) := by
  induction h with
  | init => exact ⟨rfl, init_once r wt udp, fun _ => Below.of (fun g e => by cases e)⟩
  | step e hr hf ih =>
    obtain ⟨a, b, d⟩ := ih
    have k := step_big hr.inv e hf
    exact ⟨k.role.trans a, k.once b, fun x => k.below (by rw [a]; exact x) (d x)⟩

/-- Critical streams stay until the connection is over. -/
theorem step_safe {q : Bool} {c : C} (h : Inv q c) (e : Ev) (hf : Fits q c e)
    (hz : e ≠ .zeroRttRejected) : Safe c (step c e) := by
  by_cases hb : e.big = false
  · exact (step_small h e hf hb).safe
  have R : Safe c c := Or.inl (Keeps.refl _)
  unfold step
  by_cases hd : c.dead = true
  · rw [if_pos hd]; exact R
  rw [if_neg hd]
  cases e with
  | request w id bad =>
    dsimp only
    split
    · refine Safe.before ?_ (keepId_after _).2.1
      rcases request_shape w id bad hf with x | ⟨i, rfl, x⟩
      · rw [x]; exact Keeps.refl _
      · exact x.keeps
    · exact R
  | createSession udp id bad =>
    dsimp only
    split
    · refine Safe.before ?_ (keepId_after _).2.1
      rcases createSession_shape udp id bad hf with x | ⟨i, rfl, x⟩
      · rw [x]; exact Keeps.refl _
      · exact x.keeps
    · exact R
  | openStream sid id =>
    dsimp only
    refine Safe.before ?_ (keepId_after _).2.1
    rcases (openStream_shape h sid id hf).1 with a | ⟨i, rfl, _, a⟩
    · rw [a]; exact Keeps.refl _
    · exact a
  | resume s uni =>
    dsimp only
    split
    · have := (resume_shape c s uni).2.2.1
      unfold keep
      split
      · exact Or.inr (Or.inr rfl)
      · rename_i c1 _ hq; rw [hq] at this; exact Or.inl (Keeps.same this)
    · exact R
  | zeroRttRejected => exact absurd rfl hz
  | _ => exact absurd rfl hb

/-- Received settings stay. -/
theorem step_remote {q : Bool} {c : C} (h : Inv q c) (e : Ev) (hf : Fits q c e) {s : Sets}
    (hz : e ≠ .zeroRttRejected) (hre : c.st = .initializing → ∀ t u, e ≠ .resume t u)
    (hs : c.remote = .received s) : (step c e).remote = .received s := by
  by_cases hb : e.big = false
  · exact (step_small h e hf hb).track.remote s hs
  unfold step
  by_cases hd : c.dead = true
  · rw [if_pos hd]; exact hs
  rw [if_neg hd]
  cases e with
  | request w id bad =>
    dsimp only
    split
    · refine (keepId_after _).1.remote s ?_
      rcases request_shape w id bad hf with x | ⟨i, rfl, x⟩
      · rw [x]; exact hs
      · rw [x.remote]; exact hs
    · exact hs
  | createSession udp id bad =>
    dsimp only
    split
    · refine (keepId_after _).1.remote s ?_
      rcases createSession_shape udp id bad hf with x | ⟨i, rfl, x⟩
      · rw [x]; exact hs
      · rw [x.remote]; exact hs
    · exact hs
  | openStream sid id =>
    dsimp only
    refine (keepId_after _).1.remote s ?_
    rcases (openStream_shape h sid id hf).1 with a | ⟨i, rfl, a, _⟩
    · rw [a]; exact hs
    · exact a.remote s hs
  | resume t u =>
    dsimp only
    split
    · have := (resume_shape c t u).2.2.2.2.2 (fun x => hre x t u rfl)
      unfold keep
      split
      · rename_i c1 hq; rw [hq] at this; dsimp only at this ⊢; rw [this]; exact hs
      · rename_i c1 _ hq; rw [hq] at this; dsimp only at this ⊢; rw [this]; exact hs
    · exact hs
  | zeroRttRejected => exact absurd rfl hz
  | _ => exact absurd rfl hb

end Neqo.H3c
