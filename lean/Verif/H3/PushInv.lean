import Verif.H3.PushSpec
import Verif.H3.PushLemmas

/-! # What is always true of pushes -/
namespace Neqo.H3
variable {H : Type}

/-- Nothing about the push has been passed on. -/
def PState.isFresh : PState H → Bool
  | .init | .only _ _ => true
  | _ => false

/-- The fields in a promise that was accepted. -/
def PState.fields : PState H → Option H
  | .promise h | .active _ h => some h
  | _ => none

/-- The stream of a push. -/
def PState.stream : PState H → Option Nat
  | .only s _ | .active s _ => some s
  | _ => none

/-- How the reports of a push stream have been dealt with. -/
def PState.reported (s : PState H) (id : Nat) (told reports : List (PEv H)) : Prop :=
  match s with
  | .init => about id reports = []
  | .promise _ => about id reports = [] ∧ dataOf id told = []
  | .only _ ev => ev = about id reports
  | .active _ _ => dataOf id told = about id reports
  | .closed => True

structure Push.Inv (p : Push H) : Prop where
  range : ∀ id, p.act.view id ≠ .init → id ≤ p.maxId
  live : ∀ sid id, (sid, id) ∈ p.live ↔ (p.act.view id).stream = some sid
  uniq : ∀ s i j, (s, i) ∈ p.live → (s, j) ∈ p.live → i = j
  used : ∀ s i, (s, i) ∈ p.live → s ∈ p.used
  fresh : ∀ id, (p.act.view id).isFresh → ∀ e ∈ p.told, e.id ≠ id
  opened : ∀ id h, (p.act.view id).fields = some h → ∀ e ∈ p.told, e.id = id →
    (∃ r, e = .promise id r h) ∨ e.isData
  same : ∀ id r r' h h', PEv.promise id r h ∈ p.told → PEv.promise id r' h' ∈ p.told → h = h'
  final : p.told.Pairwise fun e x => e.isEnd → x.id ≠ e.id
  resetq : ∀ id r h, PEv.reset id ∈ p.queue → PEv.promise id r h ∉ p.queue
  data : ∀ e ∈ p.reports, e.isData
  rep : ∀ id, (p.act.view id).reported id p.told p.reports

theorem PState.cases_view (s : PState H) :
    s.isFresh = true ∨ (∃ h, s.fields = some h) ∨ s = .closed := by
  cases s <;> simp [PState.isFresh, PState.fields]

theorem data_not_end (e : PEv H) (h : e.isData = true) (h2 : e.isEnd = true) : False := by
  cases e <;> simp [PEv.isData, PEv.isEnd] at h h2

/-- One push changes its state; events are removed from the queue and added to it. -/
theorem Push.Inv.change {p p' : Push H} (hi : p.Inv) (id : Nat) (s' : PState H) (keep : PEv H → Bool)
    (add : List (PEv H))
    (hv : ∀ j, p'.act.view j = if j = id then s' else p.act.view j)
    (hq : p'.queue = p.queue.filter keep ++ add) (hs : p'.seen = p.seen)
    (hm : p.maxId ≤ p'.maxId) (hid : id ≤ p'.maxId)
    (hl : ∀ sid j, (sid, j) ∈ p'.live ↔ if j = id then s'.stream = some sid else (sid, j) ∈ p.live)
    (hu : ∀ s i j, (s, i) ∈ p'.live → (s, j) ∈ p'.live → i = j)
    (hused : ∀ s i, (s, i) ∈ p'.live → s ∈ p'.used)
    (hadd : ∀ e ∈ add, e.id = id)
    (hopen : add ≠ [] → p.act.view id ≠ .closed)
    (hf : s'.isFresh → (p.act.view id).isFresh ∧ add = [])
    (ho : ∀ h, s'.fields = some h → ((p.act.view id).isFresh ∨ (p.act.view id).fields = some h) ∧
      ∀ e ∈ add, (∃ r, e = .promise id r h) ∨ e.isData)
    (hc : s' = .closed → ∀ e ∈ add, e.isEnd)
    (hp : add.Pairwise fun e x => e.isEnd → x.id ≠ e.id)
    (hr : PEv.reset id ∈ add → ∀ r h, PEv.promise id r h ∈ p.queue → keep (.promise id r h) = false)
    (hd : ∀ e ∈ p'.reports, e.isData)
    (hrep : s'.reported id p'.told p'.reports)
    (hrepo : ∀ j, j ≠ id → about j p'.reports = about j p.reports)
    (hkeep : ∀ e, e.id ≠ id → e.isData → keep e) : p'.Inv := by
  have htold : ∀ e ∈ p'.told, e ∈ p.told ∨ e ∈ add := by
    intro e he
    unfold Push.told at he ⊢
    rw [hs, hq] at he
    simp only [List.mem_append, List.mem_filter] at he ⊢
    rcases he with h | h | h
    · exact Or.inl (Or.inl h)
    · exact Or.inl (Or.inr h.1)
    · exact Or.inr h
  have hother : ∀ j, j ≠ id → p'.act.view j = p.act.view j := fun j hj => by rw [hv, if_neg hj]
  have hself : p'.act.view id = s' := by rw [hv, if_pos rfl]
  have hnoend : add ≠ [] → ∀ e ∈ p.told, e.isEnd → e.id ≠ id := by
    intro ha e he hend hid'
    rcases (p.act.view id).cases_view with h | ⟨h, hh⟩ | h
    · exact hi.fresh id h e he hid'
    · rcases hi.opened id h hh e he hid' with ⟨r, rfl⟩ | h2
      · cases hend
      · exact data_not_end e h2 hend
    · exact hopen ha h
  refine
    { range := ?_, live := ?_, uniq := hu, used := hused, fresh := ?_, opened := ?_, same := ?_,
      final := ?_, resetq := ?_, data := hd, rep := ?_ }
  · intro j hj
    by_cases e : j = id
    · subst e; exact hid
    · rw [hother j e] at hj; exact Nat.le_trans (hi.range j hj) hm
  · intro sid j
    rw [hl, hv]
    split
    · rfl
    · exact hi.live sid j
  · intro j hj e he
    by_cases ej : j = id
    · subst ej
      rw [hself] at hj
      obtain ⟨h1, h2⟩ := hf hj
      rcases htold e he with h | h
      · exact hi.fresh j h1 e h
      · rw [h2] at h; cases h
    · rw [hother j ej] at hj
      rcases htold e he with h | h
      · exact hi.fresh j hj e h
      · rw [hadd e h]; exact fun h => ej h.symm
  · intro j h hj e he hej
    by_cases ej : j = id
    · subst ej
      rw [hself] at hj
      obtain ⟨h1, h2⟩ := ho h hj
      rcases htold e he with h3 | h3
      · rcases h1 with h1 | h1
        · exact absurd hej (hi.fresh j h1 e h3)
        · exact hi.opened j h h1 e h3 hej
      · exact h2 e h3
    · rw [hother j ej] at hj
      rcases htold e he with h3 | h3
      · exact hi.opened j h hj e h3 hej
      · exact absurd ((hadd e h3).symm.trans hej).symm ej
  · have key : ∀ j r r' h h', PEv.promise j r h ∈ p'.told → PEv.promise j r' h' ∈ add → h = h' := by
      intro j r r' h h' h1 h2
      have ej : j = id := hadd _ h2
      subst ej
      rcases s'.cases_view with hs' | ⟨h0, hs'⟩ | hs'
      · rw [(hf hs').2] at h2; cases h2
      · obtain ⟨h3, h4⟩ := ho h0 hs'
        have e2 : h' = h0 := by
          rcases h4 _ h2 with ⟨_, e⟩ | e
          · cases e; rfl
          · cases e
        rcases htold _ h1 with h5 | h5
        · rcases h3 with h3 | h3
          · exact absurd rfl (hi.fresh j h3 _ h5)
          · rcases hi.opened j h0 h3 _ h5 rfl with ⟨_, e⟩ | e
            · cases e; exact e2.symm
            · cases e
        · rcases h4 _ h5 with ⟨_, e⟩ | e
          · cases e; exact e2.symm
          · cases e
      · have := hc hs' _ h2; cases this
    intro j r r' h h' h1 h2
    rcases htold _ h2 with h3 | h3
    · rcases htold _ h1 with h4 | h4
      · exact hi.same j r r' h h' h4 h3
      · exact (key j r' r h' h h2 h4).symm
    · exact key j r r' h h' h1 h3
  · unfold Push.told
    rw [hs, hq, ← List.append_assoc, List.pairwise_append]
    have hsub : (p.seen ++ p.queue.filter keep).Sublist p.told :=
      List.Sublist.append (List.Sublist.refl _) List.filter_sublist
    refine ⟨hi.final.sublist hsub, hp, ?_⟩
    intro a ha b hb hend heq
    rw [hadd b hb] at heq
    exact hnoend (fun h => by rw [h] at hb; cases hb) a (hsub.subset ha) hend heq.symm
  · intro j r h h1 h2
    rw [hq] at h1 h2
    simp only [List.mem_append, List.mem_filter] at h1 h2
    rcases h1 with h1 | h1
    · rcases h2 with h2 | h2
      · exact hi.resetq j r h h1.1 h2.1
      · have : PEv.reset j ∈ p.told := List.mem_append_right _ h1.1
        have ej : j = id := hadd _ h2
        exact hnoend (fun h => by rw [h] at h2; cases h2) _ this rfl ej
    · have ej : j = id := hadd _ h1
      subst ej
      rcases h2 with h2 | h2
      · rw [hr h1 r h h2.1] at h2; cases h2.2
      · rcases s'.cases_view with hs' | ⟨h0, hs'⟩ | hs'
        · rw [(hf hs').2] at h2; cases h2
        · rcases (ho h0 hs').2 _ h1 with ⟨_, e⟩ | e <;> cases e
        · have := hc hs' _ h2; cases this
  · intro j
    by_cases ej : j = id
    · subst ej; rw [hself]; exact hrep
    · rw [hother j ej]
      have hr0 := hi.rep j
      have e1 : about j p'.reports = about j p.reports := hrepo j ej
      have e2 : dataOf j p'.told = dataOf j p.told := by
        unfold dataOf Push.told
        rw [hs, hq]
        simp only [List.filter_append, List.filter_filter]
        have : add.filter (fun e => decide (e.isData = true ∧ e.id = j)) = [] := by
          rw [List.filter_eq_nil_iff]
          intro e he
          simp only [hadd e he, decide_eq_true_eq, not_and]
          exact fun _ h => ej h.symm
        rw [this, List.append_nil]
        congr 1
        apply List.filter_congr
        intro e _
        by_cases hde : e.isData = true ∧ e.id = j
        · rw [hkeep e (by rw [hde.2]; exact ej) hde.1]; simp
        · simp [hde]
      unfold PState.reported at hr0 ⊢
      rw [e1, e2]; exact hr0

/-- The parts of the state that no operation on one push touches. -/
theorem Push.Inv.of_view {p p' : Push H} (hi : p.Inv) (hv : ∀ j, p'.act.view j = p.act.view j)
    (hq : p'.queue = p.queue) (hs : p'.seen = p.seen) (hm : p.maxId ≤ p'.maxId) (hl : p'.live = p.live)
    (hu : ∀ s ∈ p.used, s ∈ p'.used) (hr : p'.reports = p.reports) : p'.Inv := by
  have ht : p'.told = p.told := by unfold Push.told; rw [hq, hs]
  exact
    { range := fun id h => Nat.le_trans (hi.range id (by rw [← hv]; exact h)) hm
      live := fun s id => by rw [hl, hv]; exact hi.live s id
      uniq := by rw [hl]; exact hi.uniq
      used := fun s i h => hu s (hi.used s i (by rw [← hl]; exact h))
      fresh := fun id h => by rw [ht]; rw [hv] at h; exact hi.fresh id h
      opened := fun id h hh => by rw [ht]; rw [hv] at hh; exact hi.opened id h hh
      same := by rw [ht]; exact hi.same
      final := by rw [ht]; exact hi.final
      resetq := by rw [hq]; exact hi.resetq
      data := by rw [hr]; exact hi.data
      rep := fun id => by rw [ht, hr, hv]; exact hi.rep id }

theorem Push.inv_new (d : Bool) (n : Nat) : (Push.new d n : Push H).Inv := by
  have hv : ∀ j, (Push.new d n : Push H).act.view j = .init := by
    intro j; simp [Push.new, Act.view]
  exact
    { range := fun id h => absurd (hv id) h
      live := fun s id => by rw [hv]; constructor <;> intro h <;> cases h
      uniq := fun _ _ _ h => by cases h
      used := fun _ _ h => by cases h
      fresh := fun _ _ _ h => by cases h
      opened := fun _ _ _ _ h => by cases h
      same := fun _ _ _ _ _ h => by cases h
      final := List.Pairwise.nil
      resetq := fun _ _ _ h => by cases h
      data := fun _ h => by cases h
      rep := fun id => by rw [hv]; rfl }

/-- What stays when the events of a push are removed. -/
def keepOther (id : Nat) (e : PEv H) : Bool := match e with | .reset _ => true | e => e.id ≠ id

theorem removeEvents_queue (p : Push H) (id : Nat) :
    (p.removeEvents id).queue = p.queue.filter (keepOther id) := rfl

theorem keepOther_other (id : Nat) (e : PEv H) (h : e.id ≠ id) : keepOther id e = true := by
  cases e <;> simp_all [keepOther, PEv.id]

theorem keepOther_promise (id r : Nat) (h : H) : keepOther id (.promise id r h) = false := by
  simp [keepOther, PEv.id]

theorem filter_true (l : List (PEv H)) : l.filter (fun _ => true) = l := by simp

/-- Removing the stream of a push. -/
theorem Push.Inv.drop_live {p : Push H} (hi : p.Inv) (id sid : Nat)
    (h : (p.act.view id).stream = some sid) (s j : Nat) :
    (s, j) ∈ (p.live.filter fun x => x.1 ≠ sid) ↔ (if j = id then none = some s else (s, j) ∈ p.live) := by
  simp only [List.mem_filter, ne_eq, decide_eq_true_eq]
  have hin := (hi.live sid id).mpr h
  split
  · rename_i e
    subst e
    constructor
    · rintro ⟨h1, h2⟩
      have := (hi.live s j).mp h1
      rw [h] at this; cases this; exact absurd rfl h2
    · intro h; cases h
  · rename_i e
    constructor
    · exact fun h => h.1
    · intro h1
      refine ⟨h1, ?_⟩
      intro h2
      have h2 : s = sid := h2
      subst h2
      exact e (hi.uniq s j id h1 hin)

theorem Push.Inv.keep_live {p : Push H} (hi : p.Inv) (id : Nat) (s' : PState H)
    (h : (p.act.view id).stream = s'.stream) (s j : Nat) :
    (s, j) ∈ p.live ↔ (if j = id then s'.stream = some s else (s, j) ∈ p.live) := by
  split
  · rename_i e; subst e; rw [← h]; exact hi.live s j
  · rfl

theorem Push.Inv.close_inv {p p' : Push H} (hi : p.Inv) (id : Nat) (keep : PEv H → Bool) (add : List (PEv H))
    (hid : id ≤ p.maxId)
    (hv : ∀ j, p'.act.view j = if j = id then .closed else p.act.view j)
    (hq : p'.queue = p.queue.filter keep ++ add) (hs : p'.seen = p.seen) (hm : p'.maxId = p.maxId)
    (hl : p'.live = p.live ∧ (p.act.view id).stream = none ∨
      ∃ sid, (p.act.view id).stream = some sid ∧ p'.live = p.live.filter fun x => x.1 ≠ sid)
    (hu : p'.used = p.used) (hr : p'.reports = p.reports)
    (hadd : add = [] ∨ ∃ e, add = [e] ∧ e.id = id ∧ e.isEnd ∧ p.act.view id ≠ .closed)
    (hkeep : ∀ e, e.id ≠ id → e.isData → keep e)
    (hres : add ≠ [] → keep = keepOther id) : p'.Inv := by
  have hlive : ∀ s j, (s, j) ∈ p'.live ↔
      (if j = id then (PState.closed : PState H).stream = some s else (s, j) ∈ p.live) := by
    intro s j
    rcases hl with ⟨e, h⟩ | ⟨sid, h, e⟩
    · rw [e]; exact hi.keep_live id .closed h s j
    · rw [e]; exact hi.drop_live id sid h s j
  have hsub : ∀ x ∈ p'.live, x ∈ p.live := by
    intro x hx
    rcases hl with ⟨e, _⟩ | ⟨sid, _, e⟩
    · rw [← e]; exact hx
    · rw [e] at hx; exact (List.mem_filter.mp hx).1
  refine hi.change id .closed keep add hv hq hs (Nat.le_of_eq hm.symm) (by omega) hlive
    (fun s i j h1 h2 => hi.uniq s i j (hsub _ h1) (hsub _ h2))
    (fun s i h => by rw [hu]; exact hi.used s i (hsub _ h)) ?_ ?_ ?_ ?_ ?_ ?_ ?_ ?_ trivial ?_ hkeep
  · intro e he
    rcases hadd with h | ⟨e', h, h2, _⟩ <;> rw [h] at he
    · cases he
    · rw [List.mem_singleton.mp he]; exact h2
  · intro ha
    rcases hadd with h | ⟨e', _, _, _, h⟩
    · exact absurd h ha
    · exact h
  · intro h; cases h
  · intro h hh; cases hh
  · intro _ e he
    rcases hadd with h | ⟨e', h, _, h2, _⟩ <;> rw [h] at he
    · cases he
    · rw [List.mem_singleton.mp he]; exact h2
  · rcases hadd with h | ⟨e', h, _⟩ <;> rw [h]
    · exact List.Pairwise.nil
    · exact List.pairwise_singleton _ _
  · intro ha r h _
    rw [hres (fun h => by rw [h] at ha; cases ha)]
    exact keepOther_promise id r h
  · rw [hr]; exact hi.data
  · intro j _; rw [hr]

end Neqo.H3
