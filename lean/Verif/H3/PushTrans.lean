import Verif.H3.PushStep

/-! # What one operation can change -/
namespace Neqo.H3
variable {H : Type}

/-- How the state of a push can change. -/
def PState.next (s t : PState H) : Prop :=
  s = t ∨
  match s with
  | .init => True
  | .promise h => t = .closed ∨ ∃ sid, t = .active sid h
  | .only sid _ => t = .closed ∨ (∃ ev, t = .only sid ev) ∨ ∃ h, t = .active sid h
  | .active _ _ => t = .closed
  | .closed => False

inductive Trans (p p' : Push H) : Prop where
  | same (hv : ∀ j, p'.act.view j = p.act.view j) (ht : p'.told = p.told) (hq : ∀ e ∈ p'.queue, e ∈ p.queue)
  | closing (id : Nat) (keep : PEv H → Bool) (add : List (PEv H))
      (hv : ∀ j, p'.act.view j = if j = id then .closed else p.act.view j)
      (hq : p'.queue = p.queue.filter keep ++ add) (hs : p'.seen = p.seen)
      (hk : keep = (fun _ => true) ∨ keep = keepOther id)
      (ha : add = [] ∨ ∃ e, add = [e] ∧ e.isEnd ∧ e.id = id ∧ p.act.view id ≠ .closed)
  | promised (id ref : Nat) (h : H) (ev : List (PEv H)) (s' : PState H)
      (hv : ∀ j, p'.act.view j = if j = id then s' else p.act.view j)
      (hq : p'.queue = p.queue ++ .promise id ref h :: ev) (hs : p'.seen = p.seen)
      (hev : ∀ e ∈ ev, e.isData ∧ e.id = id) (hn : (p.act.view id).next s') (hf : s'.fields = some h)
  | streaming (id : Nat) (s' : PState H)
      (hv : ∀ j, p'.act.view j = if j = id then s' else p.act.view j)
      (hq : p'.queue = p.queue) (hs : p'.seen = p.seen)
      (hn : (p.act.view id).next s') (hf : s'.fields = (p.act.view id).fields)
  | event (e : PEv H) (h : H) (hv : ∀ j, p'.act.view j = p.act.view j) (hq : p'.queue = p.queue ++ [e])
      (hs : p'.seen = p.seen) (hd : e.isData) (hf : (p.act.view e.id).fields = some h)

theorem view_upd_same {a b : Act H} {id : Nat} {s : PState H} (h : ∀ j, b.view j = a.view j) (hs : a.view id = s) :
    ∀ j, b.view j = if j = id then s else a.view j := by
  intro j; rw [h]; split
  · rename_i e; rw [e, hs]
  · rfl

variable [DecidableEq H]

theorem Push.Inv.trans {p : Push H} (hi : p.Inv) (op : POp H) (hop : op.isRequestClosed = false) :
    Trans p (p.step op).1 := by
  have event : ∀ (id sid : Nat) (ev : PEv H), ev.isData = true → ev.id = id → (p.act.view id).stream = some sid →
      Trans p ({ p with reports := p.reports ++ [ev] }.streamEvent id ev).1 := by
    intro id sid ev hd he h
    have hnc := stream_not_closed h
    obtain ⟨e, hf⟩ := get_open p.act id hnc
    unfold Push.streamEvent
    simp only [e]
    cases hc : p.act.view id with
    | closed => exact absurd hc hnc
    | init => rw [hc] at h; cases h
    | promise _ => rw [hc] at h; cases h
    | only s buf =>
      exact .streaming id _ (view_set p.act id _ hf) rfl rfl
        (by rw [hc]; exact Or.inr (Or.inr (Or.inl ⟨_, rfl⟩))) (by rw [hc]; rfl)
    | active s hh =>
      exact .event ev hh (view_grow p.act id) rfl rfl hd (by rw [he, hc]; rfl)
  cases op with
  | promise id ref h =>
    show Trans p (p.newPushPromise id ref h).1
    unfold Push.newPushPromise
    split
    · exact .same (fun _ => rfl) rfl (fun _ h => h)
    by_cases hc : p.act.view id = .closed
    · obtain ⟨a1, e, hv, _⟩ := get_closed p.act id hc
      rw [e]; exact .same hv rfl (fun _ h => h)
    · obtain ⟨e, hf⟩ := get_open p.act id hc
      rw [e]
      cases hv : p.act.view id with
      | closed => exact absurd hv hc
      | init =>
        exact .promised id ref h [] (.promise h) (view_set p.act id _ hf) rfl rfl (fun _ h => by cases h)
          (by rw [hv]; exact Or.inr trivial) rfl
      | promise h0 =>
        simp only
        split
        · exact .same (view_grow p.act id) rfl (fun _ h => h)
        · rename_i hh
          have hh : h = h0 := by simpa using hh
          subst hh
          exact .promised id ref h [] (.promise h) (view_upd_same (view_grow p.act id) hv) rfl rfl
            (fun _ h => by cases h) (by rw [hv]; exact Or.inl rfl) rfl
      | active sid h0 =>
        simp only
        split
        · exact .same (view_grow p.act id) rfl (fun _ h => h)
        · rename_i hh
          have hh : h = h0 := by simpa using hh
          subst hh
          exact .promised id ref h [] (.active sid h) (view_upd_same (view_grow p.act id) hv) rfl rfl
            (fun _ h => by cases h) (by rw [hv]; exact Or.inl rfl) rfl
      | only sid ev =>
        have hrep := hi.rep id; rw [hv] at hrep
        have hrep : ev = about id p.reports := hrep
        refine .promised id ref h ev (.active sid h) (view_set p.act id _ hf) (by simp) rfl ?_
          (by rw [hv]; exact Or.inr (Or.inr (Or.inr ⟨h, rfl⟩))) rfl
        intro e he; rw [hrep, mem_about] at he; exact ⟨hi.data e he.1, he.2⟩
  | newStream id sid =>
    simp only [Push.step]
    split
    · exact .same (fun _ => rfl) rfl (fun _ h => h)
    unfold Push.newStream Push.addNewPushStream
    simp only
    split
    · exact .same (fun _ => rfl) rfl (fun _ h => h)
    by_cases hid : id > p.maxId
    · rw [if_pos hid]; exact .same (fun _ => rfl) rfl (fun _ h => h)
    rw [if_neg hid]
    by_cases hc : p.act.view id = .closed
    · obtain ⟨a1, e, hv, _⟩ := get_closed p.act id hc
      rw [e]; exact .same hv rfl (fun _ h => h)
    · obtain ⟨e, hf⟩ := get_open p.act id hc
      rw [e]
      cases hv : p.act.view id with
      | closed => exact absurd hv hc
      | init =>
        exact .streaming id (.only sid []) (view_set p.act id _ hf) rfl rfl (by rw [hv]; exact Or.inr trivial)
          (by rw [hv]; rfl)
      | promise h =>
        exact .streaming id (.active sid h) (view_set p.act id _ hf) rfl rfl
          (by rw [hv]; exact Or.inr (Or.inr ⟨sid, rfl⟩)) (by rw [hv]; rfl)
      | active _ _ => exact .same (view_grow p.act id) rfl (fun _ h => h)
      | only _ _ => exact .same (view_grow p.act id) rfl (fun _ h => h)
  | headers sid h i f =>
    simp only [Push.step]
    cases hx : p.idOf sid with
    | none => exact .same (fun _ => rfl) rfl (fun _ h => h)
    | some id => exact event id sid _ rfl rfl ((hi.live sid id).mp (idOf_mem p sid id hx))
  | data sid =>
    simp only [Push.step]
    cases hx : p.idOf sid with
    | none => exact .same (fun _ => rfl) rfl (fun _ h => h)
    | some id => exact event id sid _ rfl rfl ((hi.live sid id).mp (idOf_mem p sid id hx))
  | done sid =>
    simp only [Push.step]
    cases hx : p.idOf sid with
    | none => exact .same (fun _ => rfl) rfl (fun _ h => h)
    | some id =>
      simp only
      unfold Push.close
      obtain ⟨a1, e, hv, _⟩ := close_spec p.act id
      simp only [e]
      have key : ∀ p' : Push H, p'.act = a1 → p'.queue = p.queue → p'.seen = p.seen → Trans p p' :=
        fun p' h1 h2 h3 => .closing id (fun _ => true) [] (by rw [h1]; exact hv) (by rw [h2]; exact keep_all _) h3
          (Or.inl rfl) (Or.inl rfl)
      cases hc : p.act.view id <;> exact key _ rfl rfl rfl
  | reset sid le =>
    simp only [Push.step]
    cases hx : p.idOf sid with
    | none => exact .same (fun _ => rfl) rfl (fun _ h => h)
    | some id =>
      have h := (hi.live sid id).mp (idOf_mem p sid id hx)
      have hnc := stream_not_closed h
      obtain ⟨e, hf⟩ := get_open p.act id hnc
      obtain ⟨a1, e2, hv, _⟩ := close_spec (p.act.grow id) id
      have hv2 : ∀ j, a1.view j = if j = id then .closed else p.act.view j := by
        intro j; rw [hv, view_grow]
      simp only
      unfold Push.streamReset
      simp only [e]
      cases hc : p.act.view id with
      | closed => exact absurd hc hnc
      | init => rw [hc] at h; cases h
      | promise _ => rw [hc] at h; cases h
      | only s ev =>
        simp only [e2]
        exact .closing id (fun _ => true) [] hv2 (keep_all _) rfl (Or.inl rfl) (Or.inl rfl)
      | active s hh =>
        simp only [e2]
        exact .closing id (keepOther id) [if le then .reset id else .canceled id] hv2 rfl rfl (Or.inr rfl)
          (Or.inr ⟨_, rfl, (by cases le <;> rfl), (by cases le <;> rfl), hnc⟩)
  | cancelPush id =>
    simp only [Push.step]
    unfold Push.handleCancelPush
    split
    · exact .same (fun _ => rfl) rfl (fun _ h => h)
    obtain ⟨a1, e, hv, _⟩ := close_spec p.act id
    rw [e]
    cases hc : p.act.view id with
    | closed =>
      rw [if_pos rfl]
      exact .closing id (fun _ => true) [] hv (keep_all _) rfl (Or.inl rfl) (Or.inl rfl)
    | init =>
      rw [if_neg (fun h => by cases h)]
      exact .closing id (fun _ => true) [] hv (keep_all _) rfl (Or.inl rfl) (Or.inl rfl)
    | promise h =>
      rw [if_neg (fun h => by cases h)]
      exact .closing id (keepOther id) [.canceled id] hv rfl rfl (Or.inr rfl) (Or.inr ⟨_, rfl, rfl, rfl, (by rw [hc]; exact fun h => by cases h)⟩)
    | only sid ev =>
      rw [if_neg (fun h => by cases h)]
      exact .closing id (keepOther id) [.canceled id] hv rfl rfl (Or.inr rfl) (Or.inr ⟨_, rfl, rfl, rfl, (by rw [hc]; exact fun h => by cases h)⟩)
    | active sid h =>
      rw [if_neg (fun h => by cases h)]
      exact .closing id (keepOther id) [.canceled id] hv rfl rfl (Or.inr rfl) (Or.inr ⟨_, rfl, rfl, rfl, (by rw [hc]; exact fun h => by cases h)⟩)
  | appCancel id =>
    simp only [Push.step]
    unfold Push.cancel
    split
    · exact .same (fun _ => rfl) rfl (fun _ h => h)
    by_cases hc : p.act.view id = .closed
    · obtain ⟨a1, e, hv, _⟩ := get_closed p.act id hc
      rw [e]
      simp only
      split
      · exact .closing id (keepOther id) [] (view_upd_same hv hc)
          (by show _ = _ ++ []; rw [List.append_nil]; rfl) rfl (Or.inr rfl) (Or.inl rfl)
      · exact .same hv rfl (fun _ h => h)
    · obtain ⟨e, hf⟩ := get_open p.act id hc
      obtain ⟨a1, e2, hv, _⟩ := close_spec (p.act.grow id) id
      have hv2 : ∀ j, a1.view j = if j = id then .closed else p.act.view j := by
        intro j; rw [hv, view_grow]
      rw [e]
      cases hv0 : p.act.view id with
      | closed => exact absurd hv0 hc
      | init => exact .same (view_grow p.act id) rfl (fun _ h => h)
      | only _ _ => exact .same (view_grow p.act id) rfl (fun _ h => h)
      | promise _ =>
        simp only [e2]
        exact .closing id (keepOther id) [] hv2 (by show _ = _ ++ []; rw [List.append_nil]; rfl) rfl (Or.inr rfl)
          (Or.inl rfl)
      | active sid _ =>
        simp only [e2]
        exact .closing id (keepOther id) [] hv2 (by show _ = _ ++ []; rw [List.append_nil]; rfl) rfl (Or.inr rfl)
          (Or.inl rfl)
  | appRead id =>
    show Trans p (p.activeStreamId id).1
    unfold Push.activeStreamId
    by_cases hc : p.act.view id = .closed
    · obtain ⟨a1, e, hv, _⟩ := get_closed p.act id hc
      rw [e]; exact .same hv rfl (fun _ h => h)
    · obtain ⟨e, hf⟩ := get_open p.act id hc
      rw [e]
      cases p.act.view id <;> exact .same (view_grow p.act id) rfl (fun _ h => h)
  | pop =>
    simp only [Push.step]
    cases hq : p.queue with
    | nil => exact .same (fun _ => rfl) rfl (fun _ h => h)
    | cons e q => exact .same (fun _ => rfl) (by simp [Push.told, hq]) (fun x hx => by rw [hq]; exact List.mem_cons_of_mem _ hx)
  | sendMax =>
    simp only [Push.step, Push.sendMax]
    repeat' split
    all_goals exact .same (fun _ => rfl) rfl (fun _ h => h)
  | requestClosed _ _ => cases hop

/-- Pushes only move forward. -/
theorem Push.Inv.step_next {p : Push H} (hi : p.Inv) (op : POp H) (id : Nat) :
    (p.act.view id).next ((p.step op).1.act.view id) := by
  by_cases hop : op.isRequestClosed = false
  · have key : ∀ (i : Nat) (s' : PState H), (p.act.view i).next s' →
        (∀ j, (p.step op).1.act.view j = if j = i then s' else p.act.view j) →
        (p.act.view id).next ((p.step op).1.act.view id) := by
      intro i s' hn hv
      rw [hv]; split
      · rename_i e; rw [e]; exact hn
      · exact Or.inl rfl
    have hclose : ∀ s : PState H, s.next .closed := by
      intro s; cases s <;> first | exact Or.inl rfl | exact Or.inr trivial | exact Or.inr (Or.inl rfl) | exact Or.inr rfl
    cases hi.trans op hop with
    | same hv _ _ => rw [hv]; exact Or.inl rfl
    | closing i _ _ hv => exact key i _ (hclose _) hv
    | promised i _ _ _ s' hv _ _ _ hn _ => exact key i s' hn hv
    | streaming i s' hv _ _ hn _ => exact key i s' hn hv
    | event _ _ hv => rw [hv]; exact Or.inl rfl
  · cases op <;> first | exact absurd rfl hop | skip
    simp only [Push.step]
    split <;> exact Or.inl rfl

omit [DecidableEq H] in
theorem next_closed {t : PState H} (h : (PState.closed : PState H).next t) : t = .closed := by
  rcases h with h | h
  · exact h.symm
  · exact h.elim

/-- A push that had a stream. -/
def PState.hadStream : PState H → Bool
  | .only _ _ | .active _ _ | .closed => true
  | _ => false

omit [DecidableEq H] in
theorem next_hadStream {s t : PState H} (h : s.next t) (hs : s.hadStream = true) : t.hadStream = true := by
  rcases h with rfl | h
  · exact hs
  · cases s with
    | init => cases hs
    | promise _ => cases hs
    | only _ _ =>
      rcases h with h | ⟨_, h⟩ | ⟨_, h⟩ <;> rw [h] <;> rfl
    | active _ _ => rw [show t = _ from h]; rfl
    | closed => exact h.elim

/-- What holds of a state and is kept by every step holds later. -/
theorem Push.run_keeps (P : Push H → Prop) (step : ∀ p op, p.Inv → P p → P (p.step op).1) {p : Push H} (hi : p.Inv)
    (hp : P p) (ops : List (POp H)) : P (p.run ops).1 := by
  induction ops generalizing p with
  | nil => exact hp
  | cons op ops ih =>
    have h1 := hi.step_inv op
    have h2 := step p op hi hp
    unfold Push.run
    split
    · rename_i heq; rw [heq] at h2; exact h2
    · rename_i heq; rw [heq] at h2; exact h2
    · rename_i p1 r _ _ heq; rw [heq] at h1 h2; exact ih h1 h2

theorem Push.run_keeps' (Q : POp H → Prop) (P : Push H → Prop)
    (step : ∀ p op, Q op → p.Inv → P p → P (p.step op).1) {p : Push H} (hi : p.Inv)
    (hp : P p) (ops : List (POp H)) (hq : ∀ op ∈ ops, Q op) : P (p.run ops).1 := by
  induction ops generalizing p with
  | nil => exact hp
  | cons op ops ih =>
    have h1 := hi.step_inv op
    have h2 := step p op (hq op List.mem_cons_self) hi hp
    have hq2 : ∀ op ∈ ops, Q op := fun o ho => hq o (List.mem_cons_of_mem _ ho)
    unfold Push.run
    split
    · rename_i heq; rw [heq] at h2; exact h2
    · rename_i heq; rw [heq] at h2; exact h2
    · rename_i p1 r _ _ heq; rw [heq] at h1 h2; exact ih h1 h2 hq2

end Neqo.H3
