import Mathlib.Data.List.Perm.Subperm
import Verif.H3.PushTrans

/-! # Order of push events, limits -/
namespace Neqo.H3
variable {H : Type}

/-- A promise for the push is in the list. -/
def promisedIn (l : List (PEv H)) (id : Nat) : Prop := ∃ r h, PEv.promise id r h ∈ l

/-- Events about data come only for pushes that are known or were promised before. -/
def OrdFrom : (Nat → Prop) → List (PEv H) → Prop
  | _, [] => True
  | k, e :: l => (e.isData → k e.id) ∧ OrdFrom (fun i => k i ∨ promisedIn [e] i) l

theorem promisedIn_append (l m : List (PEv H)) (i : Nat) :
    promisedIn (l ++ m) i ↔ promisedIn l i ∨ promisedIn m i := by
  unfold promisedIn
  constructor
  · rintro ⟨r, h, hm⟩
    rcases List.mem_append.mp hm with hm | hm
    · exact Or.inl ⟨r, h, hm⟩
    · exact Or.inr ⟨r, h, hm⟩
  · rintro (⟨r, h, hm⟩ | ⟨r, h, hm⟩)
    · exact ⟨r, h, List.mem_append_left _ hm⟩
    · exact ⟨r, h, List.mem_append_right _ hm⟩

theorem promisedIn_nil (i : Nat) : ¬ promisedIn ([] : List (PEv H)) i := by
  rintro ⟨_, _, h⟩; cases h

theorem ordFrom_mono {k k' : Nat → Prop} (h : ∀ i, k i → k' i) (l : List (PEv H)) (ho : OrdFrom k l) :
    OrdFrom k' l := by
  induction l generalizing k k' with
  | nil => trivial
  | cons e l ih =>
    exact ⟨fun hd => h _ (ho.1 hd), ih (fun i hi => hi.imp (h i) id) ho.2⟩

theorem ordFrom_append (k : Nat → Prop) (l m : List (PEv H)) :
    OrdFrom k (l ++ m) ↔ OrdFrom k l ∧ OrdFrom (fun i => k i ∨ promisedIn l i) m := by
  induction l generalizing k with
  | nil =>
    constructor
    · intro h; exact ⟨trivial, ordFrom_mono (fun i hi => Or.inl hi) m h⟩
    · rintro ⟨_, h⟩
      exact ordFrom_mono (fun i hi => hi.elim id (fun h => (promisedIn_nil i h).elim)) m h
  | cons e l ih =>
    show (_ ∧ OrdFrom _ (l ++ m)) ↔ (_ ∧ OrdFrom _ l) ∧ _
    rw [ih, and_assoc]
    have hh : ∀ i, (((k i ∨ promisedIn [e] i) ∨ promisedIn l i) ↔ (k i ∨ promisedIn (e :: l) i)) := by
      intro i
      rw [show e :: l = [e] ++ l from rfl, promisedIn_append, or_assoc]
    have : OrdFrom (fun i => (k i ∨ promisedIn [e] i) ∨ promisedIn l i) m ↔
        OrdFrom (fun i => k i ∨ promisedIn (e :: l) i) m :=
      ⟨ordFrom_mono (fun i => (hh i).mp) m, ordFrom_mono (fun i => (hh i).mpr) m⟩
    rw [this]

theorem ordFrom_keepOther (id : Nat) (k k' : Nat → Prop) (h : ∀ i, i ≠ id → k i → k' i) (l : List (PEv H))
    (ho : OrdFrom k l) : OrdFrom k' (l.filter (keepOther id)) := by
  induction l generalizing k k' with
  | nil => trivial
  | cons e l ih =>
    rw [List.filter_cons]
    split
    · rename_i hk
      refine ⟨?_, ih _ _ ?_ ho.2⟩
      · intro hd
        refine h _ ?_ (ho.1 hd)
        intro he
        cases e <;> simp_all [keepOther, PEv.isData, PEv.id]
      · intro i hi hx; exact hx.imp (h i hi) (fun h => h)
    · rename_i hk
      refine ih _ _ ?_ ho.2
      intro i hi hx
      rcases hx with hx | ⟨r, hh, hm⟩
      · exact h i hi hx
      · rw [List.mem_singleton] at hm
        subst hm
        exact absurd (keepOther_other id (.promise i r hh) hi) hk

theorem promisedIn_keepOther (id i : Nat) (hi : i ≠ id) (l : List (PEv H)) (h : promisedIn l i) :
    promisedIn (l.filter (keepOther id)) i := by
  obtain ⟨r, hh, hm⟩ := h
  exact ⟨r, hh, List.mem_filter.mpr ⟨hm, keepOther_other id _ hi⟩⟩

/-- Promised pushes have been announced, and data is reported only for announced
pushes. -/
structure Push.Ord (p : Push H) : Prop where
  ann : ∀ id h, (p.act.view id).fields = some h → promisedIn p.told id
  ord : OrdFrom (fun _ => False) p.told

theorem ordFrom_nodata (k : Nat → Prop) (l : List (PEv H)) (h : ∀ e ∈ l, e.isData = false) : OrdFrom k l := by
  induction l generalizing k with
  | nil => trivial
  | cons e l ih =>
    refine ⟨fun hd => ?_, ih _ (fun x hx => h x (List.mem_cons_of_mem _ hx))⟩
    rw [h e List.mem_cons_self] at hd; cases hd

theorem ordFrom_known (k : Nat → Prop) (l : List (PEv H)) (h : ∀ e ∈ l, k e.id) : OrdFrom k l := by
  induction l generalizing k with
  | nil => trivial
  | cons e l ih =>
    exact ⟨fun _ => h e List.mem_cons_self, ih _ (fun x hx => Or.inl (h x (List.mem_cons_of_mem _ hx)))⟩

theorem Push.Ord.append {p p' : Push H} (ho : p.Ord) (add : List (PEv H)) (hq : p'.queue = p.queue ++ add)
    (hs : p'.seen = p.seen) : p'.told = p.told ++ add := by
  unfold Push.told; rw [hq, hs, List.append_assoc]

variable [DecidableEq H]

theorem Push.Ord.step {p : Push H} (ho : p.Ord) (hi : p.Inv) (op : POp H) (hop : op.isRequestClosed = false) :
    (p.step op).1.Ord := by
  cases hi.trans op hop with
  | same hv ht _ => exact ⟨fun id h hh => by rw [ht]; rw [hv] at hh; exact ho.ann id h hh, by rw [ht]; exact ho.ord⟩
  | closing id keep add hv hq hs hk ha =>
    have hadd : ∀ e ∈ add, e.isData = false := by
      rcases ha with h | ⟨e, h, h2, _⟩ <;> intro x hx <;> rw [h] at hx
      · cases hx
      · rw [List.mem_singleton.mp hx]
        cases hd : e.isData
        · rfl
        · exact (data_not_end e hd h2).elim
    have htold : (p.step op).1.told = (p.seen ++ p.queue.filter keep) ++ add := by
      unfold Push.told; rw [hq, hs, List.append_assoc]
    have hord := ho.ord
    unfold Push.told at hord
    rw [ordFrom_append] at hord
    have hpart : OrdFrom (fun _ => False) (p.seen ++ p.queue.filter keep) ∧
        ∀ i, i ≠ id → promisedIn p.told i → promisedIn (p.seen ++ p.queue.filter keep) i := by
      rcases hk with hk | hk
      · rw [hk, filter_true]
        exact ⟨ho.ord, fun _ _ h => h⟩
      · rw [hk, ordFrom_append]
        refine ⟨⟨hord.1, ordFrom_keepOther id _ _ (fun i _ h => h) _ hord.2⟩, ?_⟩
        intro i hne h
        unfold Push.told at h
        rw [promisedIn_append] at h ⊢
        exact h.imp (fun h => h) (promisedIn_keepOther id i hne p.queue)
    refine ⟨?_, ?_⟩
    · intro i h hh
      rw [hv] at hh
      split at hh
      · cases hh
      · rename_i hne
        rw [htold, promisedIn_append]
        exact Or.inl (hpart.2 i hne (ho.ann i h hh))
    · rw [htold, ordFrom_append]
      exact ⟨hpart.1, ordFrom_nodata _ _ hadd⟩
  | promised id ref h ev s' hv hq hs hev hn hf =>
    have htold := ho.append (p' := (p.step op).1) _ hq hs
    refine ⟨?_, ?_⟩
    · intro i h' hh
      rw [hv] at hh
      rw [htold, promisedIn_append]
      split at hh
      · rename_i e; subst e
        exact Or.inr ⟨ref, h, List.mem_cons_self⟩
      · exact Or.inl (ho.ann i h' hh)
    · rw [htold, ordFrom_append]
      refine ⟨ho.ord, ⟨(fun hd => by simp [PEv.isData] at hd), ?_⟩⟩
      apply ordFrom_known
      intro e he
      rw [(hev e he).2]
      exact Or.inr ⟨ref, h, List.mem_singleton.mpr rfl⟩
  | streaming id s' hv hq hs hn hf =>
    have htold : (p.step op).1.told = p.told := by unfold Push.told; rw [hq, hs]
    refine ⟨?_, by rw [htold]; exact ho.ord⟩
    intro i h' hh
    rw [hv] at hh
    rw [htold]
    split at hh
    · rename_i e; subst e; rw [hf] at hh; exact ho.ann i h' hh
    · exact ho.ann i h' hh
  | event e h hv hq hs hd hf =>
    have htold := ho.append (p' := (p.step op).1) _ hq hs
    refine ⟨?_, ?_⟩
    · intro i h' hh
      rw [hv] at hh
      rw [htold, promisedIn_append]
      exact Or.inl (ho.ann i h' hh)
    · rw [htold, ordFrom_append]
      exact ⟨ho.ord, fun _ => Or.inr (ho.ann e.id h hf), trivial⟩

theorem Push.ord_new (d : Bool) (n : Nat) : (Push.new d n : Push H).Ord := by
  refine ⟨?_, trivial⟩
  intro id h hh
  simp [Push.new, Act.view, PState.fields] at hh

omit [DecidableEq H] in
theorem ordFrom_split (l pre post : List (PEv H)) (e : PEv H) (ho : OrdFrom (fun _ => False) l)
    (hl : l = pre ++ e :: post) (hd : e.isData = true) : promisedIn pre e.id := by
  rw [hl, ordFrom_append] at ho
  rcases ho.2.1 hd with h | h
  · exact h.elim
  · exact h

/-! ## Limits -/

/-- The number of closed pushes among the first. -/
def closedBelow (a : Act H) (n : Nat) : Nat := ((List.range n).filter fun i => (a.view i).isClosed).length

omit [DecidableEq H] in
theorem closedBelow_eq (a : Act H) (n : Nat) :
    closedBelow a n = min n a.first + closedCount (a.states.take (n - a.first)) := by
  induction n with
  | zero => simp [closedBelow, closedCount]
  | succ n ih =>
    have h1 : closedBelow a (n + 1) = closedBelow a n + (if (a.view n).isClosed then 1 else 0) := by
      unfold closedBelow
      rw [List.range_succ, List.filter_append, List.length_append]
      congr 1
      cases h : (a.view n).isClosed <;> simp [h]
    rw [h1, ih]
    by_cases hf : n < a.first
    · have : (a.view n).isClosed = true := by unfold Act.view; rw [if_pos hf]; rfl
      rw [this, if_pos rfl, show n - a.first = 0 by omega, show n + 1 - a.first = 0 by omega]
      omega
    · rw [show n + 1 - a.first = (n - a.first) + 1 by omega, List.take_add_one, closedCount_append]
      have hv : a.view n = a.states.getD (n - a.first) .init := by unfold Act.view; rw [if_neg hf]
      rw [hv, List.getD_eq_getElem?_getD]
      cases hx : a.states[n - a.first]? with
      | none => simp [closedCount, PState.isClosed]; omega
      | some s =>
        simp only [Option.getD_some, Option.toList_some]
        rw [closedCount_cons]
        have hz : closedCount ([] : List (PState H)) = 0 := rfl
        cases s <;> simp [PState.isClosed, hz] <;> omega

omit [DecidableEq H] in
theorem done_eq (a : Act H) (n : Nat) (h : ∀ id, a.view id = .closed → id < n) :
    a.numberDone = closedBelow a n := by
  have hbig : closedBelow a (n + a.first + a.states.length) = a.numberDone := by
    rw [closedBelow_eq, Nat.min_eq_right (by omega), List.take_of_length_le (by omega)]; rfl
  rw [← hbig]
  generalize a.first + a.states.length = m at *
  have : ∀ m, closedBelow a (n + m) = closedBelow a n := by
    intro m
    induction m with
    | zero => rfl
    | succ m ih =>
      rw [← ih]
      unfold closedBelow
      rw [show n + (m + 1) = (n + m) + 1 by omega, List.range_succ, List.filter_append, List.length_append]
      have : (a.view (n + m)).isClosed = false := by
        cases hx : (a.view (n + m)).isClosed
        · rfl
        · have := h _ ((isClosed_iff _).mp hx); omega
      simp [this]
  rw [Nat.add_assoc, this]

omit [DecidableEq H] in
/-- Open and closed pushes together are at most those there can be. -/
theorem open_done_le (a : Act H) (n : Nat) (h : ∀ id, a.view id = .closed → id < n) (l : List Nat) (hl : l.Nodup)
    (ho : ∀ id ∈ l, id < n ∧ a.view id ≠ .closed) : l.length + a.numberDone ≤ n := by
  rw [done_eq a n h]
  have hnd : (l ++ (List.range n).filter fun i => (a.view i).isClosed).Nodup := by
    rw [List.nodup_append]
    refine ⟨hl, List.nodup_range.filter _, ?_⟩
    intro x hx y hy e
    subst e
    exact (ho x hx).2 ((isClosed_iff _).mp (List.mem_filter.mp hy).2)
  have hsub : (l ++ (List.range n).filter fun i => (a.view i).isClosed) ⊆ List.range n := by
    intro x hx
    rcases List.mem_append.mp hx with hx | hx
    · exact List.mem_range.mpr (ho x hx).1
    · exact (List.mem_filter.mp hx).1
  have := (hnd.subperm hsub).length_le
  rw [List.length_append, List.length_range] at this
  exact this

omit [DecidableEq H] in
theorem done_mono (a b : Act H) (h : ∀ id, a.view id = .closed → b.view id = .closed) (n : Nat)
    (hb : ∀ id, b.view id = .closed → id < n) : a.numberDone ≤ b.numberDone := by
  rw [done_eq a n (fun id hid => hb id (h id hid)), done_eq b n hb]
  unfold closedBelow
  rw [← List.countP_eq_length_filter, ← List.countP_eq_length_filter]
  apply List.countP_mono_left
  intro x _ hx
  exact (isClosed_iff _).mpr (h x ((isClosed_iff _).mp hx))

/-- What is true of the limits. -/
structure Push.Lim (p : Push H) : Prop where
  last : maxIds p.frames = [] ∧ p.maxId = 0 ∨ allowed p.frames = some p.maxId
  incr : (maxIds p.frames).Pairwise (· < ·)
  room : p.maxId + 1 ≤ p.act.numberDone + max p.maxConcurrent 1

theorem step_frames (p : Push H) (op : POp H) (h : op ≠ .sendMax) :
    (p.step op).1.maxId = p.maxId ∧ maxIds (p.step op).1.frames = maxIds p.frames := by
  have hsame : ∀ p' : Push H, p'.maxId = p.maxId → p'.frames = p.frames →
      p'.maxId = p.maxId ∧ maxIds p'.frames = maxIds p.frames := fun p' h1 h2 => ⟨h1, by rw [h2]⟩
  cases op with
  | promise id ref h =>
    simp only [Push.step, Push.newPushPromise]
    repeat' split
    all_goals exact hsame _ rfl rfl
  | newStream id sid =>
    simp only [Push.step, Push.newStream]
    split
    · exact hsame _ rfl rfl
    split
    · exact hsame _ rfl rfl
    · have : ∀ q : Push H, q.maxId = p.maxId → q.frames = p.frames →
          (q.addNewPushStream id sid).1.maxId = p.maxId ∧ (q.addNewPushStream id sid).1.frames = p.frames := by
        intro q h1 h2
        unfold Push.addNewPushStream
        repeat' split
        all_goals exact ⟨h1, h2⟩
      have := this { p with used := sid :: p.used } rfl rfl
      split
      · rename_i heq; rw [heq] at this; exact hsame _ this.1 this.2
      · rename_i heq; rw [heq] at this; exact hsame _ this.1 this.2
      · exact hsame _ this.1 this.2
  | headers sid h i f =>
    simp only [Push.step, Push.streamEvent]
    repeat' split
    all_goals exact hsame _ rfl rfl
  | data sid =>
    simp only [Push.step, Push.streamEvent]
    repeat' split
    all_goals exact hsame _ rfl rfl
  | done sid =>
    simp only [Push.step, Push.close]
    repeat' split
    all_goals exact hsame _ rfl rfl
  | reset sid le =>
    simp only [Push.step, Push.streamReset]
    repeat' split
    all_goals exact hsame _ rfl rfl
  | cancelPush id =>
    simp only [Push.step, Push.handleCancelPush]
    repeat' split
    all_goals exact hsame _ rfl rfl
  | appCancel id =>
    simp only [Push.step, Push.cancel]
    repeat' split
    all_goals first
      | exact hsame _ rfl rfl
      | exact ⟨rfl, by simp [maxIds, Push.removeEvents]⟩
  | appRead id =>
    simp only [Push.step, Push.activeStreamId]
    repeat' split
    all_goals exact hsame _ rfl rfl
  | pop =>
    simp only [Push.step]
    repeat' split
    all_goals exact hsame _ rfl rfl
  | sendMax => exact absurd rfl h
  | requestClosed _ _ =>
    simp only [Push.step]
    repeat' split
    all_goals exact hsame _ rfl rfl

theorem step_conc (p : Push H) (op : POp H) :
    (p.step op).1.maxConcurrent = p.maxConcurrent ∧ (p.step op).1.debug = p.debug := by
  cases op with
  | newStream id sid =>
    simp only [Push.step, Push.newStream, Push.addNewPushStream]
    repeat' split
    all_goals first | exact ⟨rfl, rfl⟩ | skip
    all_goals rename_i heq; revert heq; (repeat' split) <;> intro heq <;> cases heq <;> exact ⟨rfl, rfl⟩
  | _ =>
    simp only [Push.step, Push.newPushPromise, Push.streamEvent, Push.close, Push.streamReset,
      Push.handleCancelPush, Push.cancel, Push.activeStreamId, Push.sendMax]
    repeat' split
    all_goals exact ⟨rfl, rfl⟩

theorem Push.Inv.done_le_max {p : Push H} (hi : p.Inv) : p.act.numberDone ≤ p.maxId + 1 :=
  done_le p.act (p.maxId + 1) (fun id h => by
    have := hi.range id (by rw [h]; exact fun h => by cases h); omega)

theorem Push.Lim.step {p : Push H} (hl : p.Lim) (hi : p.Inv) (op : POp H) : (p.step op).1.Lim := by
  by_cases hop : op = .sendMax
  · subst hop
    have hd := hi.done_le_max
    simp only [Push.step, Push.sendMax]
    split
    · exact hl
    split
    · exact hl
    split
    · rename_i h0 h1 h2
      have e : maxIds (p.frames ++ [.maxPushId (p.act.numberDone + p.maxConcurrent - 1)]) =
          maxIds p.frames ++ [p.act.numberDone + p.maxConcurrent - 1] := by simp [maxIds]
      refine ⟨Or.inr ?_, ?_, ?_⟩
      · show (maxIds (p.frames ++ _)).getLast? = _
        rw [e]; simp
      · show (maxIds (p.frames ++ _)).Pairwise _
        rw [e, List.pairwise_append]
        refine ⟨hl.incr, List.pairwise_singleton _ _, ?_⟩
        intro a ha b hb
        rw [List.mem_singleton.mp hb]
        have : a ≤ p.maxId := by
          rcases hl.last with h | h
          · rw [h.1] at ha; cases ha
          · unfold allowed at h
            obtain ⟨l, hl2⟩ := List.getLast?_eq_some_iff.mp h
            have hinc := hl.incr
            rw [hl2] at ha hinc
            rw [List.pairwise_append] at hinc
            rcases List.mem_append.mp ha with ha | ha
            · exact Nat.le_of_lt (hinc.2.2 a ha _ (List.mem_singleton.mpr rfl))
            · rw [List.mem_singleton.mp ha]; exact Nat.le_refl _
        omega
      · show p.act.numberDone + p.maxConcurrent - 1 + 1 ≤ p.act.numberDone + max p.maxConcurrent 1
        omega
    · exact hl
  · obtain ⟨h1, h2⟩ := step_frames p op hop
    have hi2 := hi.step_inv op
    have hd : p.act.numberDone ≤ (p.step op).1.act.numberDone := by
      apply done_mono _ _ _ ((p.step op).1.maxId + 1)
      · intro id h
        have := hi2.range id (by rw [h]; exact fun h => by cases h); omega
      · intro id h
        have := hi.step_next op id
        rw [h] at this; exact next_closed this
    refine ⟨?_, ?_, ?_⟩
    · unfold allowed; rw [h1, h2]; exact hl.last
    · rw [h2]; exact hl.incr
    · rw [h1, (step_conc p op).1]; have := hl.room; omega

theorem Push.lim_new (d : Bool) (n : Nat) : (Push.new d n : Push H).Lim := by
  refine ⟨Or.inl ⟨rfl, rfl⟩, List.Pairwise.nil, ?_⟩
  simp [Push.new]; omega

end Neqo.H3
