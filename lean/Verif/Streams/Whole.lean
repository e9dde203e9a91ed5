import Verif.Streams.Open

/-! Every step keeps the invariant. -/

namespace Neqo.Strs

open Neqo.Flow (SFc RFc)
open Neqo.Sched (Writer Sched imFind)

variable {σ γ : Type}

def Op.isRejected : Op σ γ → Bool
  | .rejected => true
  | _ => false

/-- What a step does, in terms of what is seen of it. -/
structure Steps (s s' : State σ) (n n' : SType → Nat) (op : Op σ γ) (os : List Out) : Prop where
  inv : Inv s' n'
  role : s'.role = s.role
  cfg : s'.cfg = s.cfg
  opened : ∀ t, n t ≤ n' t ∧ os.filterMap (openedId t) = (List.range' (n t) (n' t - n t)).map (nth t s.role.other)
  still : (∀ f, op ≠ .frame f) → n' = n
  reject : op.isRejected = true → ∀ t, (s'.loc t).used = 0 ∧ (s'.loc t).limit = 0
  created : op.isRejected = false → ∀ t, (s.loc t).used ≤ (s'.loc t).used ∧
      os.filterMap (createdId t) = (List.range' (s.loc t).used ((s'.loc t).used - (s.loc t).used)).map (nth t s.role) ∧
      (s'.loc t).limit = max (s.loc t).limit (grant t op)
  adv : ∀ t, (s'.remote t).fc.maxAllowed = ((os.filterMap (sentMax t)).getLast?).getD (s.remote t).fc.maxAllowed

/-- A step that nobody sees. -/
theorem Steps.quiet {s s' : State σ} {n : SType → Nat} {op : Op σ γ} {os : List Out} (hi : Inv s' n)
    (hr : s'.role = s.role) (hc : s'.cfg = s.cfg) (hj : op.isRejected = false)
    (hu : ∀ t, (s'.loc t).used = (s.loc t).used) (hl : ∀ t, (s'.loc t).limit = max (s.loc t).limit (grant t op))
    (ha : ∀ t, (s'.remote t).fc.maxAllowed = (s.remote t).fc.maxAllowed)
    (ho : ∀ t, os.filterMap (openedId t) = [] ∧ os.filterMap (createdId t) = [] ∧ os.filterMap (sentMax t) = []) :
    Steps s s' n n op os where
  inv := hi
  role := hr
  cfg := hc
  opened t := by
    rw [(ho t).1, Nat.sub_self]
    exact ⟨Nat.le_refl _, rfl⟩
  still _ := rfl
  reject hh := by rw [hj] at hh; cases hh
  created _ t := by
    rw [(ho t).2.1, hu, Nat.sub_self]
    exact ⟨Nat.le_refl _, rfl, hl t⟩
  adv t := by
    rw [(ho t).2.2]
    exact ha t

theorem filterMap_opened (t t' : SType) (r : Role) (l : List Nat) :
    (l.map (fun i => Out.opened (nth t r i))).filterMap (openedId t') = if t = t' then l.map (nth t r) else [] := by
  induction l with
  | nil => split <;> rfl
  | cons i l ih =>
    rw [List.map_cons, List.filterMap_cons, openedId_nth, ih]
    by_cases h : t = t'
    · simp only [if_pos h, List.map_cons]
    · simp only [if_neg h]

theorem filterMap_opened_other (t : SType) (f : Out → Option Nat) (hf : ∀ i, f (.opened i) = none) (r : Role)
    (l : List Nat) : (l.map (fun i => Out.opened (nth t r i))).filterMap f = [] := by
  induction l with
  | nil => rfl
  | cons i l ih => rw [List.map_cons, List.filterMap_cons, hf, ih]

/-- A frame about a stream makes sure that it is open. -/
theorem obtain_spec {K : Kind σ γ} (hK : KindOk K) {s : State σ} {n : SType → Nat} (h : Inv s n) (id : Nat)
    (hp : s.peer.isSome = true) :
    (∃ s' os n', obtainStream K s id = .ok (s', os) ∧ Inv s' n' ∧ Opens s s' ∧ Grown K s s' ∧
      (∀ t, n t ≤ n' t ∧ os.filterMap (openedId t) = (List.range' (n t) (n' t - n t)).map (nth t s.role.other)) ∧
      (∀ t, os.filterMap (createdId t) = [] ∧ os.filterMap (sentMax t) = [])) ∨
    obtainStream K s id = .error .streamLimit ∨ obtainStream K s id = .error .streamState := by
  cases hl : isLocal s.role id with
  | true =>
    rw [obtain_local h hl]
    split
    · refine Or.inl ⟨s, [], n, rfl, h, Opens.refl s, Grown.refl K s, fun t => ?_, fun t => ⟨rfl, rfl⟩⟩
      rw [Nat.sub_self]
      exact ⟨Nat.le_refl _, rfl⟩
    · exact Or.inr (Or.inr rfl)
  | false =>
    have hr : isRemote s.role id = true := by unfold isRemote; rw [hl]; rfl
    have := obtain_remote hK h hr hp
    split at this
    · obtain ⟨s', h1, h2, h3, h4⟩ := this
      refine Or.inl ⟨s', _, _, h1, h2, h3, h4, fun t => ?_, fun t => ⟨?_, ?_⟩⟩
      · rw [filterMap_opened]
        unfold upTo
        by_cases ht : t = typeOf id
        · rw [if_pos ht, ht, if_pos rfl]
          refine ⟨Nat.le_max_left _ _, ?_⟩
          congr 2
          omega
        · rw [if_neg ht, if_neg (fun hh => ht hh.symm), Nat.sub_self]
          exact ⟨Nat.le_refl _, rfl⟩
      · exact filterMap_opened_other _ _ (fun _ => rfl) _ _
      · exact filterMap_opened_other _ _ (fun _ => rfl) _ _
    · exact Or.inr (Or.inl this)

/-- An operation on a receive stream. -/
theorem onRecv_spec {s : State σ} {n : SType → Nat} (h : Inv s n) (id : Nat) (op : RecvS.Op)
    (hk : ∀ st, SMap.find s.recv id = some st → Keeps st op) :
    (∃ s', s.onRecv id op = .ok s' ∧ Inv s' n ∧ Same s s' ∧ s'.send = s.send) ∨
    (∃ e, s.onRecv id op = .error e ∧ e ≠ .panic) := by
  unfold State.onRecv
  cases hf : SMap.find s.recv id with
  | none => exact Or.inl ⟨s, rfl, h, ⟨rfl, rfl, rfl, rfl, rfl, rfl, fun hh => hh, rfl, rfl⟩, rfl⟩
  | some st =>
    dsimp only
    cases hr : recvStep st s.ses op with
    | error e =>
      refine Or.inr ⟨e, rfl, fun he => ?_⟩
      rw [he] at hr
      exact h.sim.no_panic hf hr
    | ok r =>
      obtain ⟨st', ses', b⟩ := r
      have hsame : Same s { s with recv := SMap.modify s.recv id (fun _ => st'), ses := ses', recvEnded := s.recvEnded || b } :=
        ⟨rfl, rfl, rfl, rfl, rfl, rfl, fun hh => hh, SMap.modify_keys s.recv id (fun _ => st'), rfl⟩
      exact Or.inl ⟨_, rfl, h.same hsame h.sok (h.srt.modify id (fun _ => st')) (h.sim.step h.srt hf (hk st hf) hr), hsame, rfl⟩

/-- A frame for the receiving part of a stream. -/
theorem frameRecv_spec {K : Kind σ γ} (hK : KindOk K) {s : State σ} {n : SType → Nat} (h : Inv s n) (id : Nat)
    (op : RecvS.Op) (hp : s.peer.isSome = true) (ho : ∀ w, op ≠ .setWindow w) (f : Frame)
    (hg : ∀ t, grant t (.frame f : Op σ γ) = 0) :
    (∃ s' os n', frameRecv K s id op = .ok (s', os) ∧ Steps s s' n n' (.frame f : Op σ γ) os) ∨
    (∃ e, frameRecv K s id op = .error e ∧ e ≠ .panic) := by
  unfold frameRecv
  cases isSendOnly s.role id with
  | true => exact Or.inr ⟨_, rfl, by decide⟩
  | false =>
    rw [if_neg (by decide)]
    rcases obtain_spec hK h id hp with ⟨s1, os, n1, h1, h2, h3, h4, h5, h6⟩ | h1 | h1
    · rw [h1]
      dsimp only
      rcases onRecv_spec h2 id op (fun st _ w _ _ hw => absurd hw (ho w)) with ⟨s2, k1, k2, k3, _⟩ | ⟨e, k1, k2⟩
      · rw [k1]
        refine Or.inl ⟨s2, os, n1, rfl, k2, k3.role.trans h3.role, k3.cfg.trans h3.cfg, h5, fun hh => absurd rfl (hh f), (fun hh => by cases hh), (fun _ => ?_), ?_⟩
        · intro t
          rw [k3.loc, h3.loc, (h6 t).1, Nat.sub_self, hg t]
          exact ⟨Nat.le_refl _, rfl, (Nat.max_zero _).symm⟩
        · intro t
          rw [(h6 t).2, k3.remote, h3.fc]
          rfl
      · rw [k1]
        exact Or.inr ⟨e, rfl, k2⟩
    · rw [h1]; exact Or.inr ⟨_, rfl, by decide⟩
    · rw [h1]; exact Or.inr ⟨_, rfl, by decide⟩

theorem touch_keys (send : Sched σ) (id : Nat) (f : σ → σ) :
    (send.touch id f).map.map (·.1) = send.map.map (·.1) := by
  unfold Sched.touch
  cases imFind send.map id with
  | none => rfl
  | some x => exact Sched.imSet_keys _ _ _

/-- A frame for the sending part of a stream. -/
theorem frameSend_spec {K : Kind σ γ} (hK : KindOk K) {s : State σ} {n : SType → Nat} (h : Inv s n) (id : Nat)
    (g : σ → σ) (hp : s.peer.isSome = true) (f : Frame) (hg : ∀ t, grant t (.frame f : Op σ γ) = 0) :
    (∃ s' os n', frameSend K s id g = .ok (s', os) ∧ Steps s s' n n' (.frame f : Op σ γ) os) ∨
    (∃ e, frameSend K s id g = .error e ∧ e ≠ .panic) := by
  unfold frameSend
  cases isRecvOnly s.role id with
  | true => exact Or.inr ⟨_, rfl, by decide⟩
  | false =>
    rw [if_neg (by decide)]
    rcases obtain_spec hK h id hp with ⟨s1, os, n1, h1, h2, h3, h4, h5, h6⟩ | h1 | h1
    · rw [h1]
      dsimp only
      have hsame : Same s1 { s1 with send := s1.send.touch id g } :=
        ⟨rfl, rfl, rfl, rfl, rfl, rfl, fun hh => hh, rfl, touch_keys _ _ _⟩
      refine Or.inl ⟨_, os, n1, rfl, h2.same hsame (Sched.touch_ok h2.sok id g) h2.srt h2.sim, h3.role, h3.cfg, h5,
        fun hh => absurd rfl (hh f), (fun hh => by cases hh), (fun _ => ?_), ?_⟩
      · intro t
        rw [hsame.loc, h3.loc, (h6 t).1, Nat.sub_self, hg t]
        exact ⟨Nat.le_refl _, rfl, (Nat.max_zero _).symm⟩
      · intro t
        rw [(h6 t).2, hsame.remote, h3.fc]
        rfl
    · rw [h1]; exact Or.inr ⟨_, rfl, by decide⟩
    · rw [h1]; exact Or.inr ⟨_, rfl, by decide⟩

theorem setLoc_loc (s : State σ) (l : SFc) (t t' : SType) : (s.setLoc l t).loc t' = if t' = t then l else s.loc t' := by
  cases t <;> cases t' <;> rfl

theorem setLoc_remote (s : State σ) (l : SFc) (t t' : SType) : (s.setLoc l t).remote t' = s.remote t' := by
  cases t <;> cases t' <;> rfl

theorem setRemote_remote (s : State σ) (r : Remote) (t t' : SType) :
    (s.setRemote r t).remote t' = if t' = t then r else s.remote t' := by
  cases t <;> cases t' <;> rfl

theorem setRemote_loc (s : State σ) (r : Remote) (t t' : SType) : (s.setRemote r t).loc t' = s.loc t' := by
  cases t <;> cases t' <;> rfl

/-- A received frame. -/
theorem inputFrame_spec {K : Kind σ γ} (hK : KindOk K) {s : State σ} {n : SType → Nat} (h : Inv s n) (f : Frame)
    (hp : s.peer.isSome = true) :
    (∃ s' os n', inputFrame K s f = .ok (s', os) ∧ Steps s s' n n' (.frame f : Op σ γ) os) ∨
    (∃ e, inputFrame K s f = .error e ∧ e ≠ .panic) := by
  cases f with
  | resetStream id err final => exact frameRecv_spec hK h id _ hp (fun _ h => by cases h) _ (fun _ => rfl)
  | resetStreamAt id err final rel =>
    unfold inputFrame
    cases s.cfg.resetAt with
    | false => exact Or.inr ⟨_, rfl, by decide⟩
    | true => exact frameRecv_spec hK h id _ hp (fun _ h => by cases h) _ (fun _ => rfl)
  | stopSending id err => exact frameSend_spec hK h id _ hp _ (fun _ => rfl)
  | stream fin id off d => exact frameRecv_spec hK h id _ hp (fun _ h => by cases h) _ (fun _ => rfl)
  | maxData m =>
    refine Or.inl ⟨_, _, n, rfl, Steps.quiet ?_ rfl rfl rfl ?_ ?_ ?_ (fun t => ⟨rfl, rfl, rfl⟩)⟩
    · exact h.same ⟨rfl, rfl, rfl, rfl, rfl, rfl, fun hh => hh, rfl, rfl⟩ h.sok h.srt h.sim
    · intro t; cases t <;> rfl
    · intro t; cases t <;> exact (Nat.max_zero _).symm
    · intro t; cases t <;> rfl
  | maxStreamData id m => exact frameSend_spec hK h id _ hp _ (fun _ => rfl)
  | maxStreams t m =>
    have hu := update_used (s.loc t) m
    have hl := update_limit (s.loc t) m
    refine Or.inl ⟨_, _, n, rfl, Steps.quiet ?_ ?_ ?_ rfl ?_ ?_ ?_ ?_⟩
    · refine h.setLoc _ t hu ?_ (fun _ => hp)
      have := h.loc t
      omega
    · cases t <;> rfl
    · cases t <;> rfl
    · intro t'
      rw [setLoc_loc]
      split
      · rename_i hh; rw [hh]; exact hu
      · rfl
    · intro t'
      rw [setLoc_loc]
      show _ = max _ (if t = t' then m else 0)
      by_cases hh : t' = t
      · rw [if_pos hh, hh, if_pos rfl]; exact hl
      · rw [if_neg hh, if_neg (fun h => hh h.symm)]; exact (Nat.max_zero _).symm
    · intro t'; rw [setLoc_remote]
    · intro t'; split <;> exact ⟨rfl, rfl, rfl⟩
  | dataBlocked =>
    refine Or.inl ⟨_, _, n, rfl, Steps.quiet ?_ rfl rfl rfl ?_ ?_ ?_ (fun t => ⟨rfl, rfl, rfl⟩)⟩
    · exact h.same ⟨rfl, rfl, rfl, rfl, rfl, rfl, fun hh => hh, rfl, rfl⟩ h.sok h.srt h.sim.blocked
    · intro t; cases t <;> rfl
    · intro t; cases t <;> exact (Nat.max_zero _).symm
    · intro t; cases t <;> rfl
  | streamDataBlocked id => exact frameRecv_spec hK h id _ hp (fun _ h => by cases h) _ (fun _ => rfl)
  | streamsBlocked =>
    refine Or.inl ⟨_, _, n, rfl, Steps.quiet h rfl rfl rfl (fun _ => rfl) (fun _ => (Nat.max_zero _).symm) (fun _ => rfl)
      (fun t => ⟨rfl, rfl, rfl⟩)⟩

/-- The application creates a stream. -/
theorem create_spec {K : Kind σ γ} {s : State σ} {n : SType → Nat} (h : Inv s n) (t : SType) :
    ∃ s' os, create K s t = .ok (s', os) ∧ Steps s s' n n (.create t : Op σ γ) os := by
  unfold create takeLocal
  by_cases hav : (s.loc t).available > 0
  · rw [if_pos hav]
    unfold SFc.available at hav
    unfold SFc.consume
    rw [if_pos (by omega)]
    dsimp only
    obtain ⟨p, hp⟩ := Option.isSome_iff_exists.mp (h.peer t (by omega))
    rw [hp]
    dsimp only
    have hid : 4 * (s.loc t).used + t.code + s.role.bit = nth t s.role (s.loc t).used := by
      unfold nth
      rw [← first_eq]
      unfold first
      omega
    rw [hid]
    have hfr := h.fresh_local t
    have hnr : nth t s.role (s.loc t).used ∉ s.recv.map (·.1) := fun hh => hfr (h.rknown _ hh).2
    have hns : nth t s.role (s.loc t).used ∉ s.send.map.map (·.1) := fun hh => hfr (h.sknown _ hh).2
    have hll : isLocal s.role (nth t s.role (s.loc t).used) = true := by rw [isLocal_nth]; simp
    have hro : isRecvOnly s.role (nth t s.role (s.loc t).used) = false := by
      unfold isRecvOnly isRemote; rw [hll]; simp
    have hcr : ∀ t', ([Out.created t (nth t s.role (s.loc t).used)]).filterMap (createdId t') =
        if t' = t then [nth t s.role (s.loc t).used] else [] := by
      intro t'
      have : createdId t' (Out.created t (nth t s.role (s.loc t).used)) =
          if t = t' then some (nth t s.role (s.loc t).used) else none := rfl
      rw [List.filterMap_cons, this]
      by_cases hh : t' = t
      · rw [if_pos hh, hh, if_pos rfl]; rfl
      · rw [if_neg hh, if_neg (fun h => hh h.symm)]; rfl
    cases t with
    | uni =>
      dsimp only [State.loc] at hav hfr hnr hns hll hro hcr ⊢
      have hnew : ∀ s' : State σ, s'.role = s.role → s'.lb = s.lb → s'.lu.used = s.lu.used + 1 →
          (∀ id, Known s n id → Known s' n id) ∧ Known s' n (nth .uni s.role s.lu.used) := by
        intro s' h1 h2 h3
        constructor
        · intro id hid
          refine known_mono h1 (fun t => ?_) (fun _ => Nat.le_refl _) hid
          cases t
          · show s.lb.used ≤ s'.lb.used; rw [h2]; exact Nat.le_refl _
          · show s.lu.used ≤ s'.lu.used; omega
        · unfold Known
          rw [h1, if_pos hll, index_nth, typeOf_nth]
          show s.lu.used < s'.lu.used
          omega
      refine ⟨_, _, rfl, ?_⟩
      refine ⟨?_, rfl, rfl, fun t' => ⟨Nat.le_refl _, by rw [Nat.sub_self]; rfl⟩, fun _ => rfl, (fun hh => by cases hh), (fun _ => ?_), ?_⟩
      · constructor
        · exact Sched.insert_ok h.sok _ (Sched.imFind_eq_none.mpr hns)
        · exact h.srt
        · exact h.cfg
        · intro t'
          cases t'
          · exact h.loc .bidi
          · show s.lu.used + 1 ≤ s.lu.limit
            have hav : s.lu.limit - s.lu.used > 0 := hav
            omega
        · intro t' _; show s.peer.isSome = true; rw [hp]; rfl
        · intro t'; cases t' <;> first | exact h.next .bidi | exact h.next .uni
        · intro t'; cases t' <;> first | exact h.allowed .bidi | exact h.allowed .uni
        · intro t'; cases t' <;> first | exact h.active .bidi | exact h.active .uni
        · intro t'; cases t' <;> first | exact h.lim .bidi | exact h.lim .uni
        · intro t'; cases t' <;> first | exact h.cnt .bidi | exact h.cnt .uni
        · intro id hid
          refine ⟨(h.rknown id hid).1, (hnew _ ?_ ?_ ?_).1 id (h.rknown id hid).2⟩ <;> rfl
        · intro id hid
          rcases mem_imInsert.mp hid with rfl | hid
          · refine ⟨hro, (hnew _ ?_ ?_ ?_).2⟩ <;> rfl
          · refine ⟨(h.sknown id hid).1, (hnew _ ?_ ?_ ?_).1 id (h.sknown id hid).2⟩ <;> rfl
        · intro id hid hb
          rcases mem_imInsert.mp hid with rfl | hid
          · rw [isBidi_nth] at hb; cases hb
          · exact h.pair id hid hb
        · exact h.sim
      · intro t'
        rw [hcr]
        cases t'
        · exact ⟨Nat.le_refl _, by show _ = (List.range' _ (s.lb.used - s.lb.used)).map _; rw [Nat.sub_self]; rfl, (Nat.max_zero _).symm⟩
        · refine ⟨Nat.le_succ _, ?_, (Nat.max_zero _).symm⟩
          show [nth .uni s.role s.lu.used] = (List.range' s.lu.used (s.lu.used + 1 - s.lu.used)).map _
          rw [Nat.add_sub_cancel_left]
          rfl
      · intro t'; cases t' <;> rfl
    | bidi =>
      dsimp only [State.loc] at hav hfr hnr hns hll hro hcr ⊢
      have hnew : ∀ s' : State σ, s'.role = s.role → s'.lu = s.lu → s'.lb.used = s.lb.used + 1 →
          (∀ id, Known s n id → Known s' n id) ∧ Known s' n (nth .bidi s.role s.lb.used) := by
        intro s' h1 h2 h3
        constructor
        · intro id hid
          refine known_mono h1 (fun t => ?_) (fun _ => Nat.le_refl _) hid
          cases t
          · show s.lb.used ≤ s'.lb.used; omega
          · show s.lu.used ≤ s'.lu.used; rw [h2]; exact Nat.le_refl _
        · unfold Known
          rw [h1, if_pos hll, index_nth, typeOf_nth]
          show s.lb.used < s'.lb.used
          omega
      have hso : isSendOnly s.role (nth .bidi s.role s.lb.used) = false := by
        unfold isSendOnly; rw [isBidi_nth]; rfl
      have hlive : ∀ (m : Nat) (t' : SType),
          (((SMap.insert s.recv (nth .bidi s.role s.lb.used) (RecvS.State.new m)).map (·.1)).filter
            (fun id => isRemote s.role id && decide (typeOf id = t'))).length = (live t' s).length := by
        intro m t'
        rw [filter_keys_insert _ hnr]
        have : isRemote s.role (nth .bidi s.role s.lb.used) = false := by
          unfold isRemote; rw [show isLocal _ _ = _ from hll]; rfl
        rw [this]
        rfl
      refine ⟨_, _, rfl, ?_⟩
      refine ⟨?_, rfl, rfl, fun t' => ⟨Nat.le_refl _, by rw [Nat.sub_self]; rfl⟩, fun _ => rfl, (fun hh => by cases hh), (fun _ => ?_), ?_⟩
      · constructor
        · exact Sched.insert_ok h.sok _ (Sched.imFind_eq_none.mpr hns)
        · exact h.srt.insert _ _
        · exact h.cfg
        · intro t'
          cases t'
          · show s.lb.used + 1 ≤ s.lb.limit
            have hav : s.lb.limit - s.lb.used > 0 := hav
            omega
          · exact h.loc .uni
        · intro t' _; show s.peer.isSome = true; rw [hp]; rfl
        · intro t'; cases t' <;> first | exact h.next .bidi | exact h.next .uni
        · intro t'; cases t' <;> first | exact h.allowed .bidi | exact h.allowed .uni
        · intro t'; cases t' <;> first | exact h.active .bidi | exact h.active .uni
        · intro t'; cases t' <;> first | exact h.lim .bidi | exact h.lim .uni
        · intro t'
          unfold live
          cases t'
          · exact (congrArg (s.rb.fc.retired + ·) (hlive s.cfg.bidiLocal .bidi)).trans (h.cnt .bidi)
          · exact (congrArg (s.ru.fc.retired + ·) (hlive s.cfg.bidiLocal .uni)).trans (h.cnt .uni)
        · intro id hid
          rcases (mem_keys_insert h.srt).mp hid with rfl | hid
          · refine ⟨hso, (hnew _ ?_ ?_ ?_).2⟩ <;> rfl
          · refine ⟨(h.rknown id hid).1, (hnew _ ?_ ?_ ?_).1 id (h.rknown id hid).2⟩ <;> rfl
        · intro id hid
          rcases mem_imInsert.mp hid with rfl | hid
          · refine ⟨hro, (hnew _ ?_ ?_ ?_).2⟩ <;> rfl
          · refine ⟨(h.sknown id hid).1, (hnew _ ?_ ?_ ?_).1 id (h.sknown id hid).2⟩ <;> rfl
        · intro id hid hb
          refine (mem_keys_insert (v := RecvS.State.new s.cfg.bidiLocal) h.srt).mpr ?_
          rcases mem_imInsert.mp hid with rfl | hid
          · exact Or.inl rfl
          · exact Or.inr (h.pair id hid hb)
        · exact h.sim.insert h.srt hnr h.cfg.bidiLocal
      · intro t'
        rw [hcr]
        cases t'
        · refine ⟨Nat.le_succ _, ?_, (Nat.max_zero _).symm⟩
          show [nth .bidi s.role s.lb.used] = (List.range' s.lb.used (s.lb.used + 1 - s.lb.used)).map _
          rw [Nat.add_sub_cancel_left]
          rfl
        · exact ⟨Nat.le_refl _, by show _ = (List.range' _ (s.lu.used - s.lu.used)).map _; rw [Nat.sub_self]; rfl, (Nat.max_zero _).symm⟩
      · intro t'; cases t' <;> rfl
  · rw [if_neg hav]
    dsimp only
    obtain ⟨hu, hl⟩ := blocked_keeps (s.loc t)
    refine ⟨_, _, rfl, Steps.quiet ?_ ?_ ?_ rfl ?_ ?_ ?_ (fun _ => ⟨rfl, rfl, rfl⟩)⟩
    · exact h.setLoc _ t hu (by rw [hu, hl]; exact h.loc t) (by rw [hl]; exact h.peer t)
    · cases t <;> rfl
    · cases t <;> rfl
    · intro t'
      rw [setLoc_loc]
      split
      · rename_i hh; rw [hh]; exact hu
      · rfl
    · intro t'
      rw [setLoc_loc]
      show _ = max _ 0
      rw [Nat.max_zero]
      split
      · rename_i hh; rw [hh]; exact hl
      · rfl
    · intro t'; rw [setLoc_remote]

end Neqo.Strs
