import Verif.H3.PushInv

/-! # Every operation keeps what is always true of pushes -/
namespace Neqo.H3
variable {H : Type}

theorem keep_all (l : List (PEv H)) : l = l.filter (fun _ => true) ++ [] := by
  rw [List.append_nil, filter_true]

theorem about_append (id : Nat) (l m : List (PEv H)) : about id (l ++ m) = about id l ++ about id m := by
  simp [about]

theorem dataOf_append (id : Nat) (l m : List (PEv H)) : dataOf id (l ++ m) = dataOf id l ++ dataOf id m := by
  simp [dataOf]

theorem dataOf_none (id : Nat) (l : List (PEv H)) (h : ∀ e ∈ l, e.id ≠ id) : dataOf id l = [] := by
  unfold dataOf
  rw [List.filter_eq_nil_iff]
  intro e he; simp [h e he]

theorem dataOf_all (id : Nat) (l : List (PEv H)) (h : ∀ e ∈ l, e.isData ∧ e.id = id) : dataOf id l = l := by
  unfold dataOf
  rw [List.filter_eq_self]
  intro e he; simp [h e he]

theorem mem_about (id : Nat) (l : List (PEv H)) (e : PEv H) : e ∈ about id l ↔ e ∈ l ∧ e.id = id := by
  simp [about]

/-- Adding events for a push whose stream stays the same. -/
theorem Push.Inv.add_inv {p p' : Push H} (hi : p.Inv) (id : Nat) (s' : PState H) (h : H) (add : List (PEv H))
    (hid : id ≤ p.maxId)
    (hv : ∀ j, p'.act.view j = if j = id then s' else p.act.view j)
    (hq : p'.queue = p.queue ++ add) (hs : p'.seen = p.seen) (hm : p'.maxId = p.maxId)
    (hl : p'.live = p.live) (hu : p'.used = p.used)
    (hst : (p.act.view id).stream = s'.stream) (hsf : s'.fields = some h)
    (hold : (p.act.view id).isFresh ∨ (p.act.view id).fields = some h)
    (hadd : ∀ e ∈ add, e.id = id ∧ ((∃ r, e = .promise id r h) ∨ e.isData))
    (hd : ∀ e ∈ p'.reports, e.isData)
    (hrep : s'.reported id p'.told p'.reports)
    (hrepo : ∀ j, j ≠ id → about j p'.reports = about j p.reports) : p'.Inv := by
  have hnc : p.act.view id ≠ .closed := by
    intro e; rw [e] at hold; rcases hold with h | h <;> cases h
  have hns : ∀ e ∈ add, e.isEnd = false := by
    intro e he
    rcases (hadd e he).2 with ⟨r, rfl⟩ | hh
    · rfl
    · cases hx : e.isEnd
      · rfl
      · exact (data_not_end e hh hx).elim
  refine hi.change id s' (fun _ => true) add hv (by rw [hq, filter_true]) hs (Nat.le_of_eq hm.symm) (by omega)
    (fun s j => by rw [hl]; exact hi.keep_live id s' hst s j) (by rw [hl]; exact hi.uniq)
    (by rw [hl, hu]; exact hi.used) (fun e he => (hadd e he).1) (fun _ => hnc) ?_ ?_ ?_ ?_ ?_ hd hrep hrepo
    (fun _ _ _ => rfl)
  · intro hf; cases s' <;> simp [PState.isFresh, PState.fields] at hf hsf
  · intro h' hh; rw [hsf] at hh; cases hh
    exact ⟨hold, fun e he => (hadd e he).2⟩
  · intro e; rw [e] at hsf; cases hsf
  · rw [List.pairwise_iff_forall_sublist]
    intro a b hab hend
    rw [hns a (hab.subset (by simp))] at hend; cases hend
  · intro hr; have := hns _ hr; cases this

variable [DecidableEq H]

theorem Push.Inv.promise_inv {p : Push H} (hi : p.Inv) (id ref : Nat) (h : H) :
    (p.newPushPromise id ref h).1.Inv := by
  unfold Push.newPushPromise
  split
  · exact hi
  rename_i hid
  by_cases hc : p.act.view id = .closed
  · obtain ⟨a1, e, hv, _⟩ := get_closed p.act id hc
    rw [e]
    exact hi.of_view hv rfl rfl (Nat.le_refl _) rfl (fun _ h => h) rfl
  · obtain ⟨e, hf⟩ := get_open p.act id hc
    rw [e]
    cases hv : p.act.view id with
    | init =>
      refine hi.add_inv id (.promise h) h [.promise id ref h] (by omega) (view_set p.act id _ hf) rfl rfl rfl rfl
        rfl (by rw [hv]; rfl) rfl (Or.inl (by rw [hv]; rfl))
        (fun e he => by rw [List.mem_singleton.mp he]; exact ⟨rfl, Or.inl ⟨ref, rfl⟩⟩) hi.data
        ?_ (fun _ _ => rfl)
      have := hi.rep id; rw [hv] at this
      refine ⟨this, ?_⟩
      show dataOf id (p.seen ++ (p.queue ++ [PEv.promise id ref h])) = _
      rw [← List.append_assoc, dataOf_append, dataOf_none id (p.seen ++ p.queue) (hi.fresh id (by rw [hv]; rfl))]
      rfl
    | promise h0 =>
      simp only
      split
      · exact hi.of_view (view_grow p.act id) rfl rfl (Nat.le_refl _) rfl (fun _ h => h) rfl
      · rename_i hh
        have hh : h = h0 := by simpa using hh
        subst hh
        refine hi.add_inv id (.promise h) h [.promise id ref h] (by omega) ?_ rfl rfl rfl rfl
          rfl (by rw [hv]) rfl (Or.inr (by rw [hv]; rfl))
          (fun e he => by rw [List.mem_singleton.mp he]; exact ⟨rfl, Or.inl ⟨ref, rfl⟩⟩) hi.data
          ?_ (fun _ _ => rfl)
        rotate_left
        · have := hi.rep id; rw [hv] at this
          refine ⟨this.1, ?_⟩
          show dataOf id (p.seen ++ (p.queue ++ [PEv.promise id ref h])) = _
          rw [← List.append_assoc, dataOf_append]
          have e2 : dataOf id [PEv.promise id ref h] = [] := rfl
          rw [e2, List.append_nil]; exact this.2
        intro j; show (p.act.grow id).view j = _; rw [view_grow]; split
        · rename_i e; rw [e, hv]
        · rfl
    | active sid h0 =>
      simp only
      split
      · exact hi.of_view (view_grow p.act id) rfl rfl (Nat.le_refl _) rfl (fun _ h => h) rfl
      · rename_i hh
        have hh : h = h0 := by simpa using hh
        subst hh
        refine hi.add_inv id (.active sid h) h [.promise id ref h] (by omega) ?_ rfl rfl rfl rfl
          rfl (by rw [hv]) rfl (Or.inr (by rw [hv]; rfl))
          (fun e he => by rw [List.mem_singleton.mp he]; exact ⟨rfl, Or.inl ⟨ref, rfl⟩⟩) hi.data
          ?_ (fun _ _ => rfl)
        · intro j; show (p.act.grow id).view j = _; rw [view_grow]; split
          · rename_i e; rw [e, hv]
          · rfl
        · have := hi.rep id; rw [hv] at this
          show dataOf id (p.seen ++ (p.queue ++ [PEv.promise id ref h])) = _
          rw [← List.append_assoc, dataOf_append]
          have e2 : dataOf id [PEv.promise id ref h] = [] := rfl
          rw [e2, List.append_nil]; exact this
    | only sid ev =>
      simp only
      have hrep := hi.rep id; rw [hv] at hrep
      have hrep : ev = about id p.reports := hrep
      have hev : ∀ e ∈ ev, e.isData ∧ e.id = id := by
        intro e he; rw [hrep, mem_about] at he; exact ⟨hi.data e he.1, he.2⟩
      refine hi.add_inv id (.active sid h) h (.promise id ref h :: ev) (by omega) (view_set p.act id _ hf)
        (by simp) rfl rfl rfl rfl (by rw [hv]; rfl) rfl (Or.inl (by rw [hv]; rfl)) ?_ hi.data ?_ (fun _ _ => rfl)
      · intro e he
        rcases List.mem_cons.mp he with rfl | he
        · exact ⟨rfl, Or.inl ⟨ref, rfl⟩⟩
        · exact ⟨(hev e he).2, Or.inr (hev e he).1⟩
      · show dataOf id (p.seen ++ (p.queue ++ [PEv.promise id ref h] ++ ev)) = _
        rw [← List.append_assoc, ← List.append_assoc, dataOf_append, dataOf_append,
          dataOf_none id (p.seen ++ p.queue) (hi.fresh id (by rw [hv]; rfl)), dataOf_all id ev hev]
        exact hrep
    | closed => exact absurd hv hc

theorem Push.Inv.newStream_inv {p : Push H} (hi : p.Inv) (id sid : Nat) (hsid : sid ∉ p.used) :
    ({ p with used := sid :: p.used }.newStream id sid).1.Inv := by
  have hused : ∀ s ∈ p.used, s ∈ sid :: p.used := fun s h => List.mem_cons_of_mem _ h
  have hself : ({ p with used := sid :: p.used } : Push H).Inv :=
    hi.of_view (fun _ => rfl) rfl rfl (Nat.le_refl _) rfl hused rfl
  unfold Push.newStream Push.addNewPushStream
  simp only
  split
  · exact hself
  by_cases hid : id > p.maxId
  · rw [if_pos hid]; exact hself
  rw [if_neg hid]
  by_cases hc : p.act.view id = .closed
  · obtain ⟨a1, e, hv, _⟩ := get_closed p.act id hc
    rw [e]
    exact hi.of_view hv rfl rfl (Nat.le_refl _) rfl hused rfl
  · obtain ⟨e, hf⟩ := get_open p.act id hc
    rw [e]
    have hnew : ∀ i, (sid, i) ∉ p.live := fun i h => hsid (hi.used sid i h)
    have hlive : ∀ s' : PState H, s'.stream = some sid → (p.act.view id).stream = none →
        ∀ s j, (s, j) ∈ (sid, id) :: p.live ↔ if j = id then s'.stream = some s else (s, j) ∈ p.live := by
      intro s' hs' hn s j
      rw [List.mem_cons]
      split
      · rename_i e; subst e
        rw [hs']
        constructor
        · rintro (h | h)
          · cases h; rfl
          · have := (hi.live s j).mp h; rw [hn] at this; cases this
        · intro h; cases h; exact Or.inl rfl
      · rename_i e
        constructor
        · rintro (h | h)
          · cases h; exact absurd rfl e
          · exact h
        · exact Or.inr
    have huniq : ∀ s i j, (s, i) ∈ (sid, id) :: p.live → (s, j) ∈ (sid, id) :: p.live → i = j := by
      intro s i j h1 h2
      rcases List.mem_cons.mp h1 with h1 | h1 <;> rcases List.mem_cons.mp h2 with h2 | h2
      · cases h1; cases h2; rfl
      · cases h1; exact absurd h2 (hnew j)
      · cases h2; exact absurd h1 (hnew i)
      · exact hi.uniq s i j h1 h2
    have hu2 : ∀ s i, (s, i) ∈ (sid, id) :: p.live → s ∈ sid :: p.used := by
      intro s i h
      rcases List.mem_cons.mp h with h | h
      · cases h; exact List.mem_cons_self
      · exact hused s (hi.used s i h)
    cases hv : p.act.view id with
    | init =>
      have hrep := hi.rep id; rw [hv] at hrep
      refine hi.change id (.only sid []) (fun _ => true) [] (view_set p.act id _ hf)
        (keep_all p.queue) rfl
        (Nat.le_refl _) (by show id ≤ p.maxId; omega) (hlive _ rfl (by rw [hv]; rfl)) huniq hu2
        (fun _ h => by cases h) (fun h => absurd rfl h) (fun _ => ⟨(by rw [hv]; rfl), rfl⟩) (fun _ h => by simp [PState.fields] at h)
        (fun h => by cases h) List.Pairwise.nil (fun h => by cases h) hi.data ?_ (fun _ _ => rfl)
        (fun _ _ _ => rfl)
      exact Eq.symm hrep
    | promise h =>
      have hrep := hi.rep id; rw [hv] at hrep
      refine hi.change id (.active sid h) (fun _ => true) [] (view_set p.act id _ hf)
        (keep_all p.queue) rfl
        (Nat.le_refl _) (by show id ≤ p.maxId; omega) (hlive _ rfl (by rw [hv]; rfl)) huniq hu2
        (fun _ h => by cases h) (fun h => absurd rfl h) (fun h => by simp [PState.isFresh] at h)
        (fun h' hh => by cases hh; exact ⟨Or.inr (by rw [hv]; rfl), fun _ h => by cases h⟩)
        (fun h => by cases h) List.Pairwise.nil (fun h => by cases h) hi.data ?_ (fun _ _ => rfl)
        (fun _ _ _ => rfl)
      show dataOf id (p.seen ++ p.queue) = about id p.reports
      rw [show about id p.reports = [] from hrep.1]
      exact hrep.2
    | active _ _ =>
      exact hi.of_view (view_grow p.act id) rfl rfl (Nat.le_refl _) rfl hused rfl
    | only _ _ =>
      exact hi.of_view (view_grow p.act id) rfl rfl (Nat.le_refl _) rfl hused rfl
    | closed => exact absurd hv hc

theorem Push.Inv.inrange {p : Push H} (hi : p.Inv) (id sid : Nat) (h : (p.act.view id).stream = some sid) :
    id ≤ p.maxId := hi.range id (fun e => by rw [e] at h; cases h)

omit [DecidableEq H] in
theorem stream_not_closed {s : PState H} {sid : Nat} (h : s.stream = some sid) : s ≠ .closed := by
  intro e; rw [e] at h; cases h

theorem Push.Inv.cancelPush_inv {p : Push H} (hi : p.Inv) (id : Nat) : (p.handleCancelPush id).1.Inv := by
  unfold Push.handleCancelPush
  split
  · exact hi
  rename_i hid
  have hid : id ≤ p.maxId := by omega
  obtain ⟨a1, e, hv, _⟩ := close_spec p.act id
  rw [e]
  cases hc : p.act.view id with
  | closed =>
    rw [if_pos rfl]
    refine hi.of_view ?_ rfl rfl (Nat.le_refl _) rfl (fun _ h => h) rfl
    intro j; show a1.view j = _; rw [hv]; split
    · rename_i e; rw [e, hc]
    · rfl
  | init =>
    rw [if_neg (fun h => by cases h)]
    exact hi.close_inv id (fun _ => true) [] hid hv (keep_all p.queue) rfl rfl
      (Or.inl ⟨rfl, by rw [hc]; rfl⟩) rfl rfl (Or.inl rfl) (fun _ _ _ => rfl) (fun h => absurd rfl h)
  | promise h =>
    rw [if_neg (fun h => by cases h)]
    exact hi.close_inv id (keepOther id) [.canceled id] hid hv rfl rfl rfl
      (Or.inl ⟨rfl, by rw [hc]; rfl⟩) rfl rfl
      (Or.inr ⟨_, rfl, rfl, rfl, by rw [hc]; exact fun h => by cases h⟩)
      (fun e he _ => keepOther_other id e he) (fun _ => rfl)
  | only sid ev =>
    rw [if_neg (fun h => by cases h)]
    exact hi.close_inv id (keepOther id) [.canceled id] hid hv rfl rfl rfl
      (Or.inr ⟨sid, by rw [hc]; rfl, rfl⟩) rfl rfl
      (Or.inr ⟨_, rfl, rfl, rfl, by rw [hc]; exact fun h => by cases h⟩)
      (fun e he _ => keepOther_other id e he) (fun _ => rfl)
  | active sid h =>
    rw [if_neg (fun h => by cases h)]
    exact hi.close_inv id (keepOther id) [.canceled id] hid hv rfl rfl rfl
      (Or.inr ⟨sid, by rw [hc]; rfl, rfl⟩) rfl rfl
      (Or.inr ⟨_, rfl, rfl, rfl, by rw [hc]; exact fun h => by cases h⟩)
      (fun e he _ => keepOther_other id e he) (fun _ => rfl)

theorem Push.Inv.done_inv {p : Push H} (hi : p.Inv) (id sid : Nat) (h : (p.act.view id).stream = some sid) :
    ({ p with live := p.live.filter fun x => x.1 ≠ sid }.close id).1.Inv := by
  have hid := hi.inrange id sid h
  unfold Push.close
  obtain ⟨a1, e, hv, _⟩ := close_spec p.act id
  simp only [e]
  have key : ∀ p' : Push H, p'.act = a1 → p'.queue = p.queue → p'.seen = p.seen → p'.maxId = p.maxId →
      p'.live = (p.live.filter fun x => x.1 ≠ sid) → p'.used = p.used → p'.reports = p.reports → p'.Inv :=
    fun p' h1 h2 h3 h4 h5 h6 h7 => hi.close_inv id (fun _ => true) [] hid (by rw [h1]; exact hv)
      (by rw [h2]; exact keep_all _) h3 h4 (Or.inr ⟨sid, h, h5⟩) h6 h7 (Or.inl rfl) (fun _ _ _ => rfl)
      (fun h => absurd rfl h)
  cases hc : p.act.view id <;> exact key _ rfl rfl rfl rfl rfl rfl rfl

theorem Push.Inv.reset_inv {p : Push H} (hi : p.Inv) (id sid : Nat) (le : Bool)
    (h : (p.act.view id).stream = some sid) :
    ({ p with live := p.live.filter fun x => x.1 ≠ sid }.streamReset id le).1.Inv := by
  have hid := hi.inrange id sid h
  have hnc := stream_not_closed h
  unfold Push.streamReset
  obtain ⟨e, hf⟩ := get_open p.act id hnc
  obtain ⟨a1, e2, hv, _⟩ := close_spec (p.act.grow id) id
  simp only [e]
  have hv2 : ∀ j, a1.view j = if j = id then .closed else p.act.view j := by
    intro j; rw [hv, view_grow]
  cases hc : p.act.view id with
  | closed => exact absurd hc hnc
  | init => rw [hc] at h; cases h
  | promise _ => rw [hc] at h; cases h
  | only s ev =>
    simp only [e2]
    exact hi.close_inv id (fun _ => true) [] hid hv2 (keep_all p.queue) rfl rfl (Or.inr ⟨sid, h, rfl⟩) rfl rfl
      (Or.inl rfl) (fun _ _ _ => rfl) (fun h => absurd rfl h)
  | active s hh =>
    simp only [e2]
    refine hi.close_inv id (keepOther id) [if le then .reset id else .canceled id] hid hv2 rfl rfl rfl
      (Or.inr ⟨sid, h, rfl⟩) rfl rfl (Or.inr ⟨_, rfl, ?_, ?_, hnc⟩)
      (fun e he _ => keepOther_other id e he) (fun _ => rfl) <;> cases le <;> rfl

theorem Push.Inv.cancel_inv {p : Push H} (hi : p.Inv) (id : Nat) : (p.cancel id).1.Inv := by
  unfold Push.cancel
  split
  · exact hi
  rename_i hid
  have hid : id ≤ p.maxId := by omega
  by_cases hc : p.act.view id = .closed
  · obtain ⟨a1, e, hv, _⟩ := get_closed p.act id hc
    rw [e]
    simp only
    split
    · refine hi.close_inv id (keepOther id) [] hid ?_ (by show _ = _ ++ []; rw [List.append_nil]; rfl) rfl rfl
        (Or.inl ⟨rfl, by rw [hc]; rfl⟩) rfl rfl (Or.inl rfl) (fun e he _ => keepOther_other id e he)
        (fun h => absurd rfl h)
      intro j; show a1.view j = _; rw [hv]; split
      · rename_i e; rw [e, hc]
      · rfl
    · exact hi.of_view hv rfl rfl (Nat.le_refl _) rfl (fun _ h => h) rfl
  · obtain ⟨e, hf⟩ := get_open p.act id hc
    obtain ⟨a1, e2, hv, _⟩ := close_spec (p.act.grow id) id
    have hv2 : ∀ j, a1.view j = if j = id then .closed else p.act.view j := by
      intro j; rw [hv, view_grow]
    rw [e]
    cases hv0 : p.act.view id with
    | closed => exact absurd hv0 hc
    | init => exact hi.of_view (view_grow p.act id) rfl rfl (Nat.le_refl _) rfl (fun _ h => h) rfl
    | only _ _ => exact hi.of_view (view_grow p.act id) rfl rfl (Nat.le_refl _) rfl (fun _ h => h) rfl
    | promise _ =>
      simp only [e2]
      exact hi.close_inv id (keepOther id) [] hid hv2 (by show _ = _ ++ []; rw [List.append_nil]; rfl) rfl rfl
        (Or.inl ⟨rfl, by rw [hv0]; rfl⟩) rfl rfl (Or.inl rfl) (fun e he _ => keepOther_other id e he)
        (fun h => absurd rfl h)
    | active sid _ =>
      simp only [e2]
      exact hi.close_inv id (keepOther id) [] hid hv2 (by show _ = _ ++ []; rw [List.append_nil]; rfl) rfl rfl
        (Or.inr ⟨sid, by rw [hv0]; rfl, rfl⟩) rfl rfl (Or.inl rfl) (fun e he _ => keepOther_other id e he)
        (fun h => absurd rfl h)

theorem Push.Inv.event_inv {p : Push H} (hi : p.Inv) (id sid : Nat) (ev : PEv H) (hd : ev.isData = true)
    (he : ev.id = id) (h : (p.act.view id).stream = some sid) :
    ({ p with reports := p.reports ++ [ev] }.streamEvent id ev).1.Inv := by
  have hid := hi.inrange id sid h
  have hnc := stream_not_closed h
  have hd2 : ∀ e ∈ p.reports ++ [ev], e.isData := by
    intro e hx
    rcases List.mem_append.mp hx with hx | hx
    · exact hi.data e hx
    · rw [List.mem_singleton.mp hx]; exact hd
  have ho : ∀ j, j ≠ id → about j (p.reports ++ [ev]) = about j p.reports := by
    intro j hj
    rw [about_append]
    have : about j [ev] = [] := by simp [about, he]; exact fun h => hj h.symm
    rw [this, List.append_nil]
  have hs : about id (p.reports ++ [ev]) = about id p.reports ++ [ev] := by
    rw [about_append]; simp [about, he]
  have hrep := hi.rep id
  unfold Push.streamEvent
  obtain ⟨e, hf⟩ := get_open p.act id hnc
  simp only [e]
  cases hc : p.act.view id with
  | closed => exact absurd hc hnc
  | init => rw [hc] at h; cases h
  | promise _ => rw [hc] at h; cases h
  | only s buf =>
    rw [hc] at hrep
    refine hi.change id (.only s (buf ++ [ev])) (fun _ => true) [] (view_set p.act id _ hf)
      (keep_all p.queue) rfl (Nat.le_refl _) hid ?_ hi.uniq hi.used
      (fun _ h => by cases h) (fun h => absurd rfl h) (fun _ => ⟨(by rw [hc]; rfl), rfl⟩)
      (fun _ h => by simp [PState.fields] at h)
      (fun h => by cases h) List.Pairwise.nil (fun h => by cases h) hd2 ?_ ho (fun _ _ _ => rfl)
    · exact hi.keep_live id _ (by rw [hc]; rfl)
    · show buf ++ [ev] = about id (p.reports ++ [ev])
      rw [hs]; rw [show buf = about id p.reports from hrep]
  | active s hh =>
    rw [hc] at hrep
    refine hi.add_inv id (.active s hh) hh [ev] hid ?_ rfl rfl rfl rfl rfl (by rw [hc]) rfl
      (Or.inr (by rw [hc]; rfl)) (fun e hx => by rw [List.mem_singleton.mp hx]; exact ⟨he, Or.inr hd⟩) hd2 ?_ ho
    · intro j; show (p.act.grow id).view j = _; rw [view_grow]; split
      · rename_i e; rw [e, hc]
      · rfl
    · show dataOf id (p.seen ++ (p.queue ++ [ev])) = about id (p.reports ++ [ev])
      rw [hs, ← List.append_assoc, dataOf_append,
        dataOf_all id [ev] (fun e hx => by rw [List.mem_singleton.mp hx]; exact ⟨hd, he⟩)]
      congr 1

omit [DecidableEq H] in
theorem idOf_mem (p : Push H) (sid id : Nat) (h : p.idOf sid = some id) : (sid, id) ∈ p.live := by
  unfold Push.idOf at h
  cases hf : p.live.find? fun x => x.1 = sid with
  | none => rw [hf] at h; cases h
  | some x =>
    rw [hf] at h
    have h1 := List.mem_of_find?_eq_some hf
    have h2 := List.find?_some hf
    obtain ⟨a, b⟩ := x
    simp only [decide_eq_true_eq] at h2
    simp only [Option.map_some, Option.some.injEq] at h
    subst h2; subst h; exact h1

/-- Every operation keeps what is always true. -/
theorem Push.Inv.step_inv {p : Push H} (hi : p.Inv) (op : POp H) : (p.step op).1.Inv := by
  cases op with
  | promise id ref h => exact hi.promise_inv id ref h
  | newStream id sid =>
    simp only [Push.step]
    split
    · exact hi
    · rename_i hs; exact hi.newStream_inv id sid hs
  | headers sid h i f =>
    simp only [Push.step]
    cases hx : p.idOf sid with
    | none => exact hi
    | some id => exact hi.event_inv id sid _ rfl rfl ((hi.live sid id).mp (idOf_mem p sid id hx))
  | data sid =>
    simp only [Push.step]
    cases hx : p.idOf sid with
    | none => exact hi
    | some id => exact hi.event_inv id sid _ rfl rfl ((hi.live sid id).mp (idOf_mem p sid id hx))
  | done sid =>
    simp only [Push.step]
    cases hx : p.idOf sid with
    | none => exact hi
    | some id => exact hi.done_inv id sid ((hi.live sid id).mp (idOf_mem p sid id hx))
  | reset sid le =>
    simp only [Push.step]
    cases hx : p.idOf sid with
    | none => exact hi
    | some id => exact hi.reset_inv id sid le ((hi.live sid id).mp (idOf_mem p sid id hx))
  | cancelPush id => exact hi.cancelPush_inv id
  | appCancel id => exact hi.cancel_inv id
  | appRead id =>
    show ((p.activeStreamId id).1).Inv
    unfold Push.activeStreamId
    by_cases hc : p.act.view id = .closed
    · obtain ⟨a1, e, hv, _⟩ := get_closed p.act id hc
      rw [e]; exact hi.of_view hv rfl rfl (Nat.le_refl _) rfl (fun _ h => h) rfl
    · obtain ⟨e, hf⟩ := get_open p.act id hc
      rw [e]
      cases p.act.view id <;>
        exact hi.of_view (view_grow p.act id) rfl rfl (Nat.le_refl _) rfl (fun _ h => h) rfl
  | pop =>
    simp only [Push.step]
    cases hq : p.queue with
    | nil => exact hi
    | cons e q =>
      have ht : ({ p with queue := q, seen := p.seen ++ [e] } : Push H).told = p.told := by
        simp [Push.told, hq]
      exact
        { range := hi.range, live := hi.live, uniq := hi.uniq, used := hi.used
          fresh := by rw [ht]; exact hi.fresh
          opened := by rw [ht]; exact hi.opened
          same := by rw [ht]; exact hi.same
          final := by rw [ht]; exact hi.final
          resetq := fun id r h h1 h2 => hi.resetq id r h (by rw [hq]; exact List.mem_cons_of_mem _ h1)
            (by rw [hq]; exact List.mem_cons_of_mem _ h2)
          data := hi.data
          rep := by rw [ht]; exact hi.rep }
  | sendMax =>
    simp only [Push.step, Push.sendMax]
    split
    · exact hi
    split
    · exact hi
    split
    · rename_i h0 h1 h2
      exact hi.of_view (fun _ => rfl) rfl rfl (by show p.maxId ≤ p.act.numberDone + p.maxConcurrent - 1; omega) rfl (fun _ h => h) rfl
    · exact hi
  | requestClosed ref hd =>
    simp only [Push.step]
    split
    · exact hi
    · generalize hk : (fun e : PEv H => match e with | .promise _ r _ => decide (r ≠ ref) | _ => true) = keep
      have hsub : ∀ e ∈ p.seen ++ p.queue.filter keep, e ∈ p.told := by
        intro e he
        rcases List.mem_append.mp he with h | h
        · exact List.mem_append_left _ h
        · exact List.mem_append_right _ (List.mem_filter.mp h).1
      exact
        { range := hi.range, live := hi.live, uniq := hi.uniq, used := hi.used
          fresh := fun id h e he => hi.fresh id h e (hsub e he)
          opened := fun id h hh e he => hi.opened id h hh e (hsub e he)
          same := fun id r r' h h' h1 h2 => hi.same id r r' h h' (hsub _ h1) (hsub _ h2)
          final := hi.final.sublist (List.Sublist.append (List.Sublist.refl _) List.filter_sublist)
          resetq := fun id r h h1 h2 => hi.resetq id r h (List.mem_filter.mp h1).1 (List.mem_filter.mp h2).1
          data := hi.data
          rep := fun id => by
            have e2 : dataOf id (p.seen ++ p.queue.filter keep) = dataOf id p.told := by
              unfold dataOf Push.told
              simp only [List.filter_append, List.filter_filter]
              congr 1
              apply List.filter_congr
              intro e _
              subst hk
              cases e <;> simp [PEv.isData]
            have := hi.rep id
            unfold PState.reported at this ⊢
            show match p.act.view id with
              | .init => _
              | .promise _ => _ ∧ dataOf id (p.seen ++ p.queue.filter keep) = []
              | .only _ ev => _
              | .active _ _ => dataOf id (p.seen ++ p.queue.filter keep) = _
              | .closed => _
            rw [e2]; exact this }

/-- Whatever happens. -/
theorem Push.Inv.run_inv {p : Push H} (hi : p.Inv) (ops : List (POp H)) : (p.run ops).1.Inv := by
  induction ops generalizing p with
  | nil => exact hi
  | cons op ops ih =>
    have h1 := hi.step_inv op
    unfold Push.run
    split
    · rename_i heq; rw [heq] at h1; exact h1
    · rename_i heq; rw [heq] at h1; exact h1
    · rename_i p1 r _ _ heq; rw [heq] at h1; exact ih h1

end Neqo.H3
