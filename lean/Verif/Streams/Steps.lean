import Verif.Streams.Whole

/-! Every step keeps the invariant: the rest. -/

namespace Neqo.Strs

open Neqo.Flow (SFc RFc)
open Neqo.Sched (Writer Sched imFind)

variable {σ γ : Type}

theorem filter_split {α : Type} (l : List α) (q d : α → Bool) :
    (l.filter q).length = (l.filter (fun e => d e && q e)).length + ((l.filter (fun e => !d e)).filter q).length := by
  induction l with
  | nil => rfl
  | cons e l ih =>
    simp only [List.filter_cons]
    cases hd : d e <;> cases hq : q e <;> simp [hq, -List.filter_filter] <;> omega

/-- What `remove_ended` keeps. -/
theorem removeEnded_keeps {w : Writer σ γ} {s : Sched σ} (h : Sched.SOk s) :
    ∃ s' b, s.removeEnded w = .ok (s', b) ∧ Sched.SOk s' ∧ (∀ e ∈ s'.map, e ∈ s.map) ∧
      (b = false → s'.map = s.map) := by
  obtain ⟨s', b, h1, h2, h3, h4⟩ := Sched.removeEnded_spec w h
  refine ⟨s', b, h1, h2, ?_, ?_⟩
  · cases hE : s.hasEnded with
    | false => rw [(h3 hE).1]; exact fun _ h => h
    | true => rw [(h4 hE).1]; exact fun e he => (List.mem_filter.mp he).1
  · intro hb
    cases hE : s.hasEnded with
    | false => rw [(h3 hE).1]
    | true =>
      obtain ⟨k1, _, k3⟩ := h4 hE
      rw [k1, List.filter_eq_self]
      intro e he
      cases hh : w.ended e.2.st with
      | false => rfl
      | true =>
        have := k3.mpr ⟨e, he, hh⟩
        rw [hb] at this
        cases this

theorem mem_keys_of {α : Type} {l m : List (Nat × α)} (h : ∀ e ∈ l, e ∈ m) {k : Nat} (hk : k ∈ l.map (·.1)) :
    k ∈ m.map (·.1) := by
  obtain ⟨e, he, rfl⟩ := List.mem_map.mp hk
  exact List.mem_map.mpr ⟨e, h e he, rfl⟩

theorem retire_fields (r : Remote) (k : Nat) : (r.retire k).next = r.next ∧ (r.retire k).fc.retired = r.fc.retired + k ∧
    (r.retire k).fc.maxActive = r.fc.maxActive ∧ (r.retire k).fc.maxAllowed = r.fc.maxAllowed := by
  unfold Remote.retire RFc.addRetiredStreams
  dsimp only
  split
  · unfold RFc.sendFlowcUpdate
    split <;> exact ⟨rfl, rfl, rfl, rfl⟩
  · exact ⟨rfl, rfl, rfl, rfl⟩

theorem retire_lim {r : Remote} (h : LimOk r.fc) (k : Nat) : LimOk (r.retire k).fc := by
  obtain ⟨h1, h2⟩ := h
  unfold RFc.nextLimit at h1 h2
  unfold Remote.retire RFc.addRetiredStreams
  dsimp only
  by_cases hk : k > 0
  · rw [if_pos hk]
    unfold RFc.sendFlowcUpdate
    dsimp only
    by_cases hg : r.fc.retired + k + r.fc.maxActive > r.fc.maxAllowed
    · rw [if_pos hg]
      refine ⟨?_, fun _ => rfl⟩
      show r.fc.maxAllowed ≤ min (r.fc.retired + k + r.fc.maxActive) _
      omega
    · rw [if_neg hg]
      refine ⟨?_, fun hh => absurd hh ?_⟩
      · show r.fc.maxAllowed ≤ min (r.fc.retired + k + r.fc.maxActive) _
        omega
      · show ¬ r.fc.maxAllowed < min (r.fc.retired + k + r.fc.maxActive) _
        omega
  · obtain rfl : k = 0 := by omega
    rw [if_neg hk]
    exact ⟨h1, h2⟩

theorem lost_lim {r : RFc} (h : LimOk r) (m : Nat) : LimOk (r.frameLost m) := by
  unfold RFc.frameLost
  split
  · exact ⟨h.le, fun _ => rfl⟩
  · exact h

theorem sent_lim (r : RFc) : LimOk (r.frameSent r.nextLimit) :=
  ⟨Nat.le_refl _, fun h => absurd h (Nat.lt_irrefl _)⟩

theorem live_length (t : SType) (s : State σ) :
    (live t s).length = (s.recv.filter (fun e => isRemote s.role e.1 && decide (typeOf e.1 = t))).length := by
  unfold live
  rw [List.filter_map, List.length_map]
  rfl

theorem typeOf_bidi (id : Nat) : decide (typeOf id = .bidi) = isBidi id := by
  unfold typeOf
  cases isBidi id <;> rfl

theorem typeOf_uni (id : Nat) : decide (typeOf id = .uni) = !isBidi id := by
  unfold typeOf
  cases isBidi id <;> rfl

/-- Closed streams are removed. -/
theorem cleanup_spec (K : Kind σ γ) {s : State σ} {n : SType → Nat} (h : Inv s n) :
    ∃ s', cleanup K s = .ok s' ∧ Steps s s' n n (.cleanup : Op σ γ) [] := by
  obtain ⟨send, b, h1, h2, h3, h4⟩ := removeEnded_keeps (w := K.w) h.sok
  unfold cleanup
  rw [h1]
  dsimp only
  by_cases hf : (!(s.recvEnded || b)) = true
  · rw [if_pos hf]
    have hb : b = false := by
      cases b
      · rfl
      · simp at hf
    refine ⟨_, rfl, Steps.quiet ?_ rfl rfl rfl (fun t => by cases t <;> rfl) (fun t => by cases t <;> exact (Nat.max_zero _).symm)
      (fun t => by cases t <;> rfl) (fun _ => ⟨rfl, rfl, rfl⟩)⟩
    exact h.same ⟨rfl, rfl, rfl, rfl, rfl, rfl, fun hh => hh, rfl, by rw [h4 hb]⟩ h2 h.srt h.sim
  · rw [if_neg hf]
    have hsub : ∀ e ∈ s.recv.filter (fun e => !dead send e), e ∈ s.recv := fun e he => (List.mem_filter.mp he).1
    have hcount : ∀ t, (live t s).length =
        ((s.recv.filter (fun e => dead send e && isRemote s.role e.1)).filter (fun e => decide (typeOf e.1 = t))).length +
        ((s.recv.filter (fun e => !dead send e)).filter (fun e => isRemote s.role e.1 && decide (typeOf e.1 = t))).length := by
      intro t
      have he : (s.recv.filter (fun e => dead send e && isRemote s.role e.1)).filter (fun e => decide (typeOf e.1 = t)) =
          s.recv.filter (fun e => dead send e && (isRemote s.role e.1 && decide (typeOf e.1 = t))) := by
        rw [List.filter_filter]
        apply List.filter_congr
        intro e _
        cases dead send e <;> cases isRemote s.role e.1 <;> simp
      rw [live_length, filter_split _ _ (dead send), he]
    refine ⟨_, rfl, Steps.quiet ?_ rfl rfl rfl (fun t => by cases t <;> rfl) (fun t => by cases t <;> exact (Nat.max_zero _).symm)
      (fun t => by cases t <;> exact (retire_fields _ _).2.2.2) (fun _ => ⟨rfl, rfl, rfl⟩)⟩
    constructor
    · exact h2
    · exact h.srt.filter _
    · exact h.cfg
    · intro t; cases t <;> first | exact h.loc .bidi | exact h.loc .uni
    · intro t; cases t <;> first | exact h.peer .bidi | exact h.peer .uni
    · intro t
      cases t
      · exact (retire_fields _ _).1.trans (h.next .bidi)
      · exact (retire_fields _ _).1.trans (h.next .uni)
    · intro t
      cases t
      · exact Nat.le_trans (h.allowed .bidi) (Nat.le_of_eq (retire_fields _ _).2.2.2.symm)
      · exact Nat.le_trans (h.allowed .uni) (Nat.le_of_eq (retire_fields _ _).2.2.2.symm)
    · intro t
      cases t
      · exact (retire_fields _ _).2.2.1.trans (h.active .bidi)
      · exact (retire_fields _ _).2.2.1.trans (h.active .uni)
    · intro t
      cases t
      · exact retire_lim (h.lim .bidi) _
      · exact retire_lim (h.lim .uni) _
    · intro t
      rw [live_length]
      have hc := hcount t
      have hn := h.cnt t
      cases t
      · simp only [typeOf_bidi] at hc ⊢
        show (s.rb.retire _).fc.retired + _ = _
        rw [(retire_fields _ _).2.1]
        have hn : s.rb.fc.retired + _ = _ := hn
        omega
      · simp only [typeOf_uni] at hc ⊢
        show (s.ru.retire _).fc.retired + _ = _
        rw [(retire_fields _ _).2.1]
        have hn : s.ru.fc.retired + _ = _ := hn
        omega
    · intro id hid
      have := h.rknown id (mem_keys_of hsub hid)
      exact ⟨this.1, known_mono (s := s) rfl (fun t => by cases t <;> exact Nat.le_refl _) (fun _ => Nat.le_refl _) this.2⟩
    · intro id hid
      have := h.sknown id (mem_keys_of h3 hid)
      exact ⟨this.1, known_mono (s := s) rfl (fun t => by cases t <;> exact Nat.le_refl _) (fun _ => Nat.le_refl _) this.2⟩
    · intro id hid hb
      have h5 := h.pair id (mem_keys_of h3 hid) hb
      obtain ⟨e, he, rfl⟩ := List.mem_map.mp h5
      refine List.mem_map.mpr ⟨e, List.mem_filter.mpr ⟨he, ?_⟩, rfl⟩
      have : (imFind send.map e.1).isSome = true := Sched.imFind_isSome.mpr hid
      unfold dead
      rw [hb]
      cases hx : imFind send.map e.1 with
      | none => rw [hx] at this; cases this
      | some x => simp
    · exact h.sim.filter h.srt _

theorem update_keys (send : Sched σ) (f : Nat → σ → σ) : (send.update f).map.map (·.1) = send.map.map (·.1) := by
  unfold Sched.Sched.update
  rw [List.map_map]
  rfl

theorem limits_inv {s : State σ} {n : SType → Nat} (h : Inv s n) {send : Sched σ} (hs : Sched.SOk send)
    (hk : send.map.map (·.1) = s.send.map.map (·.1)) (p : Peer) (os : List Out)
    (ho : ∀ t, os.filterMap (openedId t) = [] ∧ os.filterMap (createdId t) = [] ∧ os.filterMap (sentMax t) = []) :
    Steps s { s with peer := some p, lb := (s.lb.update p.maxBidi).1, lu := (s.lu.update p.maxUni).1, send,
                     conn := (s.conn.update p.maxData).1 } n n (.limits p : Op σ γ) os := by
  have h0 : Inv { s with peer := some p, send, conn := (s.conn.update p.maxData).1 } n :=
    h.same ⟨rfl, rfl, rfl, rfl, rfl, rfl, fun _ => rfl, rfl, hk⟩ hs h.srt h.sim
  have h1 := h0.setLoc (s.lb.update p.maxBidi).1 .bidi (update_used _ _) (by
    rw [update_used, update_limit]
    have : s.lb.used ≤ s.lb.limit := h.loc .bidi
    omega) (fun _ => rfl)
  have h2 := h1.setLoc (s.lu.update p.maxUni).1 .uni (update_used _ _) (by
    rw [update_used, update_limit]
    have : s.lu.used ≤ s.lu.limit := h.loc .uni
    omega) (fun _ => rfl)
  refine Steps.quiet h2 rfl rfl rfl ?_ ?_ (fun t => by cases t <;> rfl) ho
  · intro t; cases t <;> exact update_used _ _
  · intro t; cases t <;> exact update_limit _ _

/-- The peer's transport parameters. -/
theorem setInitialLimits_spec (K : Kind σ γ) {s : State σ} {n : SType → Nat} (h : Inv s n) (p : Peer) :
    ((s.role = .client ∧ ∃ id ∈ s.send.map.map (·.1), isBidi id = true ∧ isRemote .client id = true) ∧
      setInitialLimits K s p = .error .panic) ∨
    ¬ (s.role = .client ∧ ∃ id ∈ s.send.map.map (·.1), isBidi id = true ∧ isRemote .client id = true) ∧
      ∃ s' os, setInitialLimits K s p = .ok (s', os) ∧ Steps s s' n n (.limits p : Op σ γ) os := by
  have ho : ∀ (a b : Prop) [Decidable a] [Decidable b] (t : SType),
      ((if a then [Out.creatable .bidi] else []) ++ if b then [Out.creatable .uni] else []).filterMap (openedId t) = [] ∧
      ((if a then [Out.creatable .bidi] else []) ++ if b then [Out.creatable .uni] else []).filterMap (createdId t) = [] ∧
      ((if a then [Out.creatable .bidi] else []) ++ if b then [Out.creatable .uni] else []).filterMap (sentMax t) = [] := by
    intro a b _ _ t
    by_cases ha : a <;> by_cases hb : b <;> simp only [if_pos, if_neg, ha, hb, not_false_eq_true] <;> exact ⟨rfl, rfl, rfl⟩
  unfold setInitialLimits
  by_cases hr : s.role = .client
  · rw [if_pos hr]
    unfold updateInitialLimit
    by_cases ha : (s.send.map.any (fun e => isBidi e.1 && isRemote .client e.1)) = true
    · rw [if_pos ha]
      refine Or.inl ⟨⟨hr, ?_⟩, rfl⟩
      obtain ⟨e, he, hh⟩ := List.any_eq_true.mp ha
      exact ⟨e.1, List.mem_map.mpr ⟨e, he, rfl⟩, (Bool.and_eq_true_iff.mp hh).1, (Bool.and_eq_true_iff.mp hh).2⟩
    · rw [if_neg ha]
      refine Or.inr ⟨?_, ?_⟩
      · rintro ⟨_, id, hid, h1, h2⟩
        obtain ⟨e, he, rfl⟩ := List.mem_map.mp hid
        exact ha (List.any_eq_true.mpr ⟨e, he, by rw [h1, h2]; rfl⟩)
      · dsimp only
        exact ⟨_, _, rfl, limits_inv h (Sched.update_ok h.sok _) (update_keys _ _) p _ (ho _ _)⟩
  · rw [if_neg hr]
    refine Or.inr ⟨fun hh => hr hh.1, ?_⟩
    dsimp only
    exact ⟨_, _, rfl, limits_inv h h.sok rfl p _ (ho _ _)⟩

/-- 0-RTT is rejected. -/
theorem rejected_spec {s : State σ} {n : SType → Nat} (h : Inv s n) (hn : ∀ t, n t = 0) :
    Steps s (zeroRttRejected s) n n (.rejected : Op σ γ) [] := by
  have hn' : n = fun _ => 0 := funext hn
  have hz : ∀ t, (s.remote t).fc.retired = 0 := by
    intro t
    have := h.cnt t
    rw [hn t] at this
    omega
  refine ⟨?_, rfl, rfl, fun t => ⟨Nat.le_refl _, by rw [Nat.sub_self]; rfl⟩, fun _ => rfl,
    (fun _ t => by cases t <;> exact ⟨rfl, rfl⟩), (fun hh => by cases hh), (fun t => by cases t <;> rfl)⟩
  constructor
  · exact Sched.SOk.nil
  · exact SMap.sorted_nil
  · exact h.cfg
  · intro t; cases t <;> exact Nat.le_refl _
  · intro t hh; cases t <;> exact absurd hh (Nat.lt_irrefl _)
  · intro t; cases t <;> first | exact h.next .bidi | exact h.next .uni
  · intro t; cases t <;> first | exact h.allowed .bidi | exact h.allowed .uni
  · intro t; cases t <;> first | exact h.active .bidi | exact h.active .uni
  · intro t; cases t <;> first | exact h.lim .bidi | exact h.lim .uni
  · intro t
    rw [hn t]
    cases t
    · exact hz .bidi
    · exact hz .uni
  · intro id hid; cases hid
  · intro id hid; cases hid
  · intro id hid; cases hid
  · exact h.sim.clear

/-- Scheduling changes no stream IDs. -/
theorem sched_keys {w : Writer σ γ} (hw : Sched.WriterOk w) {s s' : Sched σ} (h : Sched.SOk s) (op : Sched.Op σ γ)
    (ha : match op with
      | .insert .. => False
      | .removeEnded => False
      | .clear => False
      | _ => True) (hs : s.exec w op = .ok s') : s'.map.map (·.1) = s.map.map (·.1) := by
  cases op with
  | insert id st => cases ha
  | removeEnded => cases ha
  | clear => cases ha
  | group id g =>
    rcases Sched.setSendGroup_spec h id g with ⟨s1, h1, h2, x, h3, h4, h5, _⟩ | ⟨h1, _⟩ | ⟨h1, _⟩
    · obtain rfl := Except.ok.inj (hs.symm.trans h1)
      rw [h4, Sched.imSet_keys]
    · cases hs.symm.trans h1
    · cases hs.symm.trans h1
  | order id o =>
    rcases Sched.setSendOrder_spec h id o with ⟨s1, h1, h2, x, h3, h4, h5⟩ | ⟨h1, _⟩
    · obtain rfl := Except.ok.inj (hs.symm.trans h1)
      rw [h4, Sched.imSet_keys]
    · cases hs.symm.trans h1
  | fair id b =>
    rcases Sched.setFairness_spec h id b with ⟨s1, h1, h2, x, h3, h4, h5⟩ | ⟨h1, _⟩
    · obtain rfl := Except.ok.inj (hs.symm.trans h1)
      rw [h4, Sched.imSet_keys]
    · cases hs.symm.trans h1
  | acked id f =>
    obtain rfl := Except.ok.inj hs
    unfold Sched.Sched.acked
    cases imFind s.map id with
    | none => rfl
    | some x => exact Sched.imSet_keys _ _ _
  | touch id f =>
    obtain rfl := Except.ok.inj hs
    exact touch_keys _ _ _
  | write sh rem =>
    obtain rfl := Except.ok.inj hs
    obtain ⟨e1, os1, os2, h1, _, _, _, _, h6, h7, _⟩ := Sched.writeFrames_spec hw h sh rem
    rw [h7]
    exact Sched.sets_keys (h6.sets.trans h1.sets)

theorem recvLost_keeps (r : RFc) (m : Nat) : (r.frameLost m).retired = r.retired ∧ (r.frameLost m).maxActive = r.maxActive ∧
    (r.frameLost m).maxAllowed = r.maxAllowed := by
  unfold RFc.frameLost
  split <;> exact ⟨rfl, rfl, rfl⟩

/-- A client's connection cannot take new transport parameters once the server has opened a
bidirectional stream. -/
def LimitsPanic (s : State σ) (op : Op σ γ) : Prop :=
  (∃ p, op = .limits p) ∧ s.role = .client ∧ ∃ id ∈ s.send.map.map (·.1), isBidi id = true ∧ isRemote .client id = true

/-- Every step. -/
theorem exec_spec {K : Kind σ γ} (hK : KindOk K) {s : State σ} {n : SType → Nat} {hist : History σ γ} (h : Inv s n)
    (op : Op σ γ) (ha : op.Allowed s hist) (hn : op.isRejected = true → ∀ t, n t = 0) :
    (∃ s' os n', exec K s op = .ok (s', os) ∧ Steps s s' n n' op os) ∨
    (∃ e f, op = .frame f ∧ exec K s op = .error e ∧ e ≠ .panic) ∨
    (LimitsPanic s op ∧ exec K s op = .error .panic) := by
  cases op with
  | frame f =>
    rcases inputFrame_spec hK h f ha with h1 | ⟨e, h1, h2⟩
    · exact Or.inl h1
    · exact Or.inr (Or.inl ⟨e, f, rfl, h1, h2⟩)
  | create t =>
    obtain ⟨s', os, h1, h2⟩ := create_spec (K := K) h t
    exact Or.inl ⟨s', os, n, h1, h2⟩
  | recv id op =>
    left
    have hk : ∀ st, SMap.find s.recv id = some st → Keeps st op := by
      intro st hst w fc buf ho hsf
      rw [ho] at ha
      exact ha fc buf (by rw [hst, hsf])
    have hno : (∀ fin off d, op ≠ .frame fin off d) ∧ (∀ err fs rel, op ≠ .reset err fs rel) := by
      constructor
      · intro a b c hh; rw [hh] at ha; exact ha
      · intro a b c hh; rw [hh] at ha; exact ha
    have hok : ∃ s', s.onRecv id op = .ok s' := by
      unfold State.onRecv
      cases hf : SMap.find s.recv id with
      | none => exact ⟨_, rfl⟩
      | some st =>
        obtain ⟨r, hr⟩ := h.sim.succeeds hf hno
        dsimp only
        rw [hr]
        exact ⟨_, rfl⟩
    rcases onRecv_spec h id op hk with ⟨s', h1, h2, h3, _⟩ | ⟨e, h1, _⟩
    · refine ⟨s', [], n, ?_, Steps.quiet h2 h3.role h3.cfg rfl (fun t => by rw [h3.loc]) (fun t => ?_)
        (fun t => by rw [h3.remote]) (fun _ => ⟨rfl, rfl, rfl⟩)⟩
      · unfold exec
        dsimp only
        rw [h1]
        rfl
      · rw [h3.loc]; exact (Nat.max_zero _).symm
    · obtain ⟨s', hs'⟩ := hok
      cases hs'.symm.trans h1
  | send op =>
    left
    have hal : op.Allowed s.send := by
      cases op with
      | insert id st => cases ha
      | _ => trivial
    unfold exec
    dsimp only
    rcases Sched.exec_spec hK.writer h.sok op hal with ⟨send, h1, h2⟩ | h1 | h1
    · rw [h1]
      refine ⟨_, _, n, rfl, Steps.quiet ?_ rfl rfl rfl (fun t => by cases t <;> rfl)
        (fun t => by cases t <;> exact (Nat.max_zero _).symm) (fun t => by cases t <;> rfl) (fun _ => ⟨rfl, rfl, rfl⟩)⟩
      refine h.same ⟨rfl, rfl, rfl, rfl, rfl, rfl, fun hh => hh, rfl, ?_⟩ h2 h.srt h.sim
      refine sched_keys hK.writer h.sok op ?_ h1
      cases op <;> first | trivial | exact ha
    · rw [h1]
      exact ⟨_, _, n, rfl, Steps.quiet h rfl rfl rfl (fun _ => rfl) (fun _ => (Nat.max_zero _).symm) (fun _ => rfl)
        (fun _ => ⟨rfl, rfl, rfl⟩)⟩
    · rw [h1]
      exact ⟨_, _, n, rfl, Steps.quiet h rfl rfl rfl (fun _ => rfl) (fun _ => (Nat.max_zero _).symm) (fun _ => rfl)
        (fun _ => ⟨rfl, rfl, rfl⟩)⟩
  | spend k =>
    left
    unfold exec
    dsimp only
    unfold SFc.consume
    rw [if_pos (show s.conn.used + k ≤ s.conn.limit from ha)]
    refine ⟨_, _, n, rfl, Steps.quiet ?_ rfl rfl rfl (fun t => by cases t <;> rfl)
      (fun t => by cases t <;> exact (Nat.max_zero _).symm) (fun t => by cases t <;> rfl) (fun _ => ⟨rfl, rfl, rfl⟩)⟩
    exact h.same ⟨rfl, rfl, rfl, rfl, rfl, rfl, fun hh => hh, rfl, rfl⟩ h.sok h.srt h.sim
  | writeMaxData fits now rtt =>
    left
    unfold exec
    dsimp only
    obtain ⟨⟨ses', o⟩, hw⟩ := h.sim.write_succeeds fits now rtt
    rw [hw]
    refine ⟨_, _, n, rfl, Steps.quiet ?_ rfl rfl rfl (fun t => by cases t <;> rfl)
      (fun t => by cases t <;> exact (Nat.max_zero _).symm) (fun t => by cases t <;> rfl) (fun _ => ?_)⟩
    · exact h.same ⟨rfl, rfl, rfl, rfl, rfl, rfl, fun hh => hh, rfl, rfl⟩ h.sok h.srt (h.sim.write hw)
    · cases o <;> exact ⟨rfl, rfl, rfl⟩
  | maxDataLost m =>
    refine Or.inl ⟨_, _, n, rfl, Steps.quiet ?_ rfl rfl rfl (fun t => by cases t <;> rfl)
      (fun t => by cases t <;> exact (Nat.max_zero _).symm) (fun t => by cases t <;> rfl) (fun _ => ⟨rfl, rfl, rfl⟩)⟩
    exact h.same ⟨rfl, rfl, rfl, rfl, rfl, rfl, fun hh => hh, rfl, rfl⟩ h.sok h.srt (h.sim.lost m)
  | writeMaxStreams t fits =>
    left
    unfold exec
    dsimp only
    unfold RFc.writeStreams
    have hlim := h.lim t
    have hact := h.active t
    have hcfg := h.cfg.streams t
    cases hp : (s.remote t).fc.framePending with
    | false =>
      rw [if_neg (by decide)]
      dsimp only
      refine ⟨_, _, n, rfl, Steps.quiet (h.setRemote _ t rfl rfl rfl (Nat.le_refl _) hlim) ?_ ?_ rfl ?_ ?_ ?_ (fun _ => ⟨rfl, rfl, rfl⟩)⟩
      · cases t <;> rfl
      · cases t <;> rfl
      · intro t'; rw [setRemote_loc]
      · intro t'; rw [setRemote_loc]; exact (Nat.max_zero _).symm
      · intro t'; rw [setRemote_remote]; split
        · rename_i hh; rw [hh]
        · rfl
    | true =>
      rw [if_pos rfl]
      cases fits with
      | false =>
        rw [if_neg (by decide)]
        dsimp only
        refine ⟨_, _, n, rfl, Steps.quiet (h.setRemote _ t rfl rfl rfl (Nat.le_refl _) hlim) ?_ ?_ rfl ?_ ?_ ?_ (fun _ => ⟨rfl, rfl, rfl⟩)⟩
        · cases t <;> rfl
        · cases t <;> rfl
        · intro t'; rw [setRemote_loc]
        · intro t'; rw [setRemote_loc]; exact (Nat.max_zero _).symm
        · intro t'; rw [setRemote_remote]; split
          · rename_i hh; rw [hh]
          · rfl
      | true =>
        rw [if_pos rfl]
        dsimp only
        refine ⟨_, _, n, rfl, ?_, ?_, ?_, ?_, fun _ => rfl, (fun hh => by cases hh), fun _ t' => ?_, fun t' => ?_⟩
        · exact h.setRemote _ t rfl rfl rfl hlim.le (sent_lim _)
        · cases t <;> rfl
        · cases t <;> rfl
        · intro t'
          rw [Nat.sub_self]
          exact ⟨Nat.le_refl _, rfl⟩
        · rw [setRemote_loc, Nat.sub_self]
          exact ⟨Nat.le_refl _, rfl, (Nat.max_zero _).symm⟩
        · rw [setRemote_remote]
          have : ([Out.maxStreams t (s.remote t).fc.nextLimit]).filterMap (sentMax t') =
              if t' = t then [(s.remote t).fc.nextLimit] else [] := by
            have : sentMax t' (Out.maxStreams t (s.remote t).fc.nextLimit) =
              if t = t' then some (s.remote t).fc.nextLimit else none := rfl
            rw [List.filterMap_cons, this]
            by_cases hh : t' = t
            · rw [if_pos hh, hh, if_pos rfl]; rfl
            · rw [if_neg hh, if_neg (fun h => hh h.symm)]; rfl
          show _ = ((([Out.maxStreams t (s.remote t).fc.nextLimit]).filterMap (sentMax t')).getLast?).getD _
          rw [this]
          by_cases hh : t' = t
          · rw [if_pos hh, if_pos hh]; rfl
          · rw [if_neg hh, if_neg hh]; rfl
  | maxStreamsLost t m =>
    obtain ⟨e1, e2, e3⟩ := recvLost_keeps (s.remote t).fc m
    refine Or.inl ⟨_, _, n, rfl, Steps.quiet (h.setRemote _ t rfl e1 e2 (Nat.le_of_eq e3.symm) ?_) ?_ ?_ rfl ?_ ?_ ?_
      (fun _ => ⟨rfl, rfl, rfl⟩)⟩
    · exact lost_lim (h.lim t) m
    · cases t <;> rfl
    · cases t <;> rfl
    · intro t'; rw [setRemote_loc]
    · intro t'; rw [setRemote_loc]; exact (Nat.max_zero _).symm
    · intro t'; rw [setRemote_remote]; split
      · rename_i hh; rw [hh]; exact e3
      · rfl
  | writeBlocked t fits =>
    obtain ⟨hu, hl⟩ := write_keeps (s.loc t) fits
    refine Or.inl ⟨_, _, n, rfl, Steps.quiet ?_ ?_ ?_ rfl ?_ ?_ ?_ ?_⟩
    · exact h.setLoc _ t hu (by rw [hu, hl]; exact h.loc t) (by rw [hl]; exact h.peer t)
    · cases t <;> rfl
    · cases t <;> rfl
    · intro t'; rw [setLoc_loc]; split
      · rename_i hh; rw [hh]; exact hu
      · rfl
    · intro t'; rw [setLoc_loc]; refine Eq.trans ?_ (Nat.max_zero _).symm; split
      · rename_i hh; rw [hh]; exact hl
      · rfl
    · intro t'; rw [setLoc_remote]
    · intro t'; cases ((s.loc t).write fits).2 <;> exact ⟨rfl, rfl, rfl⟩
  | blockedLost t l =>
    obtain ⟨hu, hl⟩ := lost_keeps (s.loc t) l
    refine Or.inl ⟨_, _, n, rfl, Steps.quiet ?_ ?_ ?_ rfl ?_ ?_ ?_ (fun _ => ⟨rfl, rfl, rfl⟩)⟩
    · exact h.setLoc _ t hu (by rw [hu, hl]; exact h.loc t) (by rw [hl]; exact h.peer t)
    · cases t <;> rfl
    · cases t <;> rfl
    · intro t'; rw [setLoc_loc]; split
      · rename_i hh; rw [hh]; exact hu
      · rfl
    · intro t'; rw [setLoc_loc]; refine Eq.trans ?_ (Nat.max_zero _).symm; split
      · rename_i hh; rw [hh]; exact hl
      · rfl
    · intro t'; rw [setLoc_remote]
  | cleanup =>
    left
    obtain ⟨s', h1, h2⟩ := cleanup_spec K h
    refine ⟨s', [], n, ?_, h2⟩
    unfold exec
    dsimp only
    rw [h1]
    rfl
  | limits p =>
    have := setInitialLimits_spec K h p
    rcases this with ⟨hh, this⟩ | ⟨_, s', os, h1, h2⟩
    · exact Or.inr (Or.inr ⟨⟨⟨p, rfl⟩, hh⟩, this⟩)
    · exact Or.inl ⟨s', os, n, h1, h2⟩
  | rejected => exact Or.inl ⟨_, _, n, rfl, rejected_spec h (hn rfl)⟩

/-! ### Histories -/

theorem firstIds_append (t : SType) (r : Role) {m n : Nat} (h : m ≤ n) :
    firstIds t r m ++ (List.range' m (n - m)).map (nth t r) = firstIds t r n := by
  unfold firstIds
  rw [← List.map_append, List.range_eq_range', List.range_eq_range']
  congr 1
  have := List.range'_append_1 (s := 0) (m := m) (n := n - m)
  rw [Nat.zero_add] at this
  rw [this]
  congr 1
  omega

/-- What the state has to do with the history. -/
structure Link (r : Role) (c : Cfg) (s : State σ) (h : History σ γ) (n : SType → Nat) : Prop where
  inv : Inv s n
  role : s.role = r
  cfg : s.cfg = c
  opened : ∀ t, opened t h = firstIds t r.other (n t)
  created : ∀ t, created t h = firstIds t r (s.loc t).used
  granted : ∀ t, (s.loc t).limit = granted t h
  advertised : ∀ t, (s.remote t).fc.maxAllowed = advertised c t h
  still : (∀ e ∈ h, ∀ f, e.1 ≠ .frame f) → ∀ t, n t = 0

theorem Link.step {role : Role} {cfg : Cfg} {s s' : State σ} {h : History σ γ} {n n' : SType → Nat}
    {op : Op σ γ} {os : List Out} (hl : Link role cfg s h n) (hs : Steps s s' n n' op os) :
    Link role cfg s' ((op, os) :: h) n' where
  inv := hs.inv
  role := hs.role.trans hl.role
  cfg := hs.cfg.trans hl.cfg
  opened t := by
    show Strs.opened t h ++ _ = _
    rw [hl.opened, (hs.opened t).2, hl.role]
    exact firstIds_append _ _ (hs.opened t).1
  created t := by
    cases hr : op.isRejected with
    | true =>
      rw [(hs.reject hr t).1]
      cases op <;> first | rfl | cases hr
    | false =>
      obtain ⟨h1, h2, _⟩ := hs.created hr t
      have : Strs.created t ((op, os) :: h) = Strs.created t h ++ os.filterMap (createdId t) := by
        cases op <;> first | rfl | cases hr
      rw [this, hl.created, h2, hl.role]
      exact firstIds_append _ _ h1
  granted t := by
    cases hr : op.isRejected with
    | true =>
      rw [(hs.reject hr t).2]
      cases op <;> first | rfl | cases hr
    | false =>
      obtain ⟨_, _, h3⟩ := hs.created hr t
      have : Strs.granted t ((op, os) :: h) = max (Strs.granted t h) (grant t op) := by
        cases op <;> first | rfl | cases hr
      rw [this, h3, hl.granted]
  advertised t := by
    rw [hs.adv t, hl.advertised]
    rfl
  still hh t := by
    rw [hs.still (fun f => hh (op, os) List.mem_cons_self f)]
    exact hl.still (fun e he => hh e (List.mem_cons_of_mem _ he)) t

theorem link_new {role : Role} {cfg : Cfg} (hc : cfg.Ok) :
    Link role cfg (State.new role cfg : State σ) ([] : History σ γ) (fun _ => 0) where
  inv := inv_new hc
  role := rfl
  cfg := rfl
  opened t := rfl
  created t := by cases t <;> rfl
  granted t := by cases t <;> rfl
  advertised t := by cases t <;> rfl
  still _ _ := rfl

theorem reach_link {K : Kind σ γ} (hK : KindOk K) {q : Prop} {role : Role} {cfg : Cfg} (hc : cfg.Ok) {s : State σ}
    {h : History σ γ} (hr : Reach K q role cfg s h) : ∃ n, Link role cfg s h n := by
  induction hr with
  | init => exact ⟨_, link_new hc⟩
  | step op hr ha hq he ih =>
    obtain ⟨n, hl⟩ := ih
    have hn : op.isRejected = true → ∀ t, n t = 0 := by
      intro hj
      cases op <;> first | exact hl.still ha.2 | cases hj
    rcases exec_spec hK hl.inv op ha hn with ⟨s', os, n', h1, h2⟩ | ⟨e, f, _, h1, _⟩ | ⟨_, h1⟩
    · obtain ⟨rfl, rfl⟩ := Prod.mk.inj (Except.ok.inj (he.symm.trans h1))
      exact ⟨n', hl.step h2⟩
    · cases he.symm.trans h1
    · cases he.symm.trans h1

end Neqo.Strs
