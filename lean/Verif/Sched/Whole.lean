import Verif.Sched.Spec

namespace Neqo.Sched

variable {σ γ : Type}

/-! ### Places -/

theorem mem_places {s : Sched σ} (hg : GW s.groups) (g : Nat) (o : Option Nat) (id : Nat) :
    (g, o, id) ∈ places s ↔ queuedIn s.groups g o id := by
  unfold places
  rw [List.mem_flatMap]
  have hin : ∀ e : Nat × Queues, QOk e.2 →
      ((g, o, id) ∈ e.2.ordered.flatMap (fun b => b.2.vec.map (fun id => (e.1, some b.1, id))) ++
        e.2.regular.vec.map (fun id => (e.1, none, id)) ↔ e.1 = g ∧ e.2.mem o id) := by
    intro e hq
    rw [List.mem_append, List.mem_flatMap, List.mem_map]
    constructor
    · rintro (⟨b, hb, hm⟩ | ⟨x, hx, he⟩)
      · obtain ⟨x, hx, he⟩ := List.mem_map.mp hm
        obtain ⟨a, he⟩ := Prod.mk.inj he
        obtain ⟨b', c⟩ := Prod.mk.inj he
        refine ⟨a, ?_⟩
        rw [← b', ← c]
        show x ∈ ((SMap.find e.2.ordered b.1).getD {}).vec
        rw [hq.sorted.find_eq_some.mpr (show (b.1, b.2) ∈ e.2.ordered from hb)]
        exact hx
      · obtain ⟨a, he⟩ := Prod.mk.inj he
        obtain ⟨b', c⟩ := Prod.mk.inj he
        refine ⟨a, ?_⟩
        rw [← b', ← c]
        exact hx
    · rintro ⟨a, hm⟩
      cases o with
      | none => exact Or.inr ⟨id, hm, by rw [a]⟩
      | some o =>
        have hm : id ∈ ((SMap.find e.2.ordered o).getD {}).vec := hm
        cases hf : SMap.find e.2.ordered o with
        | none => rw [hf] at hm; cases hm
        | some og =>
          rw [hf] at hm
          exact Or.inl ⟨(o, og), hq.sorted.find_eq_some.mp hf, List.mem_map.mpr ⟨id, hm, by rw [a]⟩⟩
  have hqok : ∀ e ∈ s.groups, QOk e.2 := fun e he => hg.q e.1 e.2 (hg.keys.find he)
  constructor
  · rintro ⟨e, he, hm⟩
    obtain ⟨a, b⟩ := (hin e (hqok e he)).mp hm
    unfold queuedIn queuesOf
    rw [← a, hg.keys.find (show (e.1, e.2) ∈ s.groups from he)]
    exact b
  · intro h
    unfold queuedIn queuesOf at h
    cases hf : imFind s.groups g with
    | none => rw [hf] at h; exact absurd h (Queues.not_mem_nil o id)
    | some q =>
      rw [hf] at h
      have he := mem_of_imFind hf
      exact ⟨(g, q), he, (hin (g, q) (hqok _ he)).mpr ⟨rfl, h⟩⟩

theorem nodup_flatMap {α β : Type} {l : List α} {f : α → List β} (h1 : ∀ x ∈ l, (f x).Nodup)
    (h2 : l.Pairwise (fun a b => ∀ x, x ∈ f a → x ∉ f b)) : (l.flatMap f).Nodup := by
  induction l with
  | nil => exact List.nodup_nil
  | cons a l ih =>
    rw [List.flatMap_cons]
    obtain ⟨p1, p2⟩ := List.pairwise_cons.mp h2
    refine List.nodup_append.mpr ⟨h1 a List.mem_cons_self, ih (fun x hx => h1 x (List.mem_cons_of_mem _ hx)) p2, ?_⟩
    intro x hx y hy hxy
    obtain ⟨b, hb, hyb⟩ := List.mem_flatMap.mp hy
    exact p1 b hb x hx (hxy ▸ hyb)

theorem nodup_map_inj {α β : Type} {l : List α} {f : α → β} (h : l.Nodup) (hf : ∀ a b, f a = f b → a = b) :
    (l.map f).Nodup := by
  unfold List.Nodup at h ⊢
  rw [List.pairwise_map]
  exact h.imp (fun hne he => hne (hf _ _ he))

theorem places_nodup {s : Sched σ} (hg : GW s.groups) : (places s).Nodup := by
  unfold places
  apply nodup_flatMap
  · intro e he
    have hq := hg.q e.1 e.2 (hg.keys.find he)
    refine List.nodup_append.mpr ⟨?_, ?_, ?_⟩
    · apply nodup_flatMap
      · intro b hb
        exact nodup_map_inj (hq.asc b hb).nodup (fun a b h => (Prod.mk.inj (Prod.mk.inj h).2).2)
      · have := hq.sorted
        unfold SMap.Sorted at this
        refine this.imp (fun {a b} hab x hx hy => ?_)
        obtain ⟨i, _, hi⟩ := List.mem_map.mp hx
        obtain ⟨j, _, hj⟩ := List.mem_map.mp hy
        rw [← hj] at hi
        have := Option.some.inj (Prod.mk.inj (Prod.mk.inj hi).2).1
        omega
    · exact nodup_map_inj hq.reg.nodup (fun a b h => (Prod.mk.inj (Prod.mk.inj h).2).2)
    · intro x hx y hy hxy
      obtain ⟨b, _, hb⟩ := List.mem_flatMap.mp hx
      obtain ⟨i, _, hi⟩ := List.mem_map.mp hb
      obtain ⟨j, _, hj⟩ := List.mem_map.mp hy
      rw [← hi, ← hj] at hxy
      cases (Prod.mk.inj (Prod.mk.inj hxy).2).1
  · have := hg.keys
    unfold Keys List.Nodup at this
    rw [List.pairwise_map] at this
    refine this.imp (fun {a b} hab x hx hy => hab ?_)
    have hfst : ∀ e : Nat × Queues, x ∈ e.2.ordered.flatMap (fun b => b.2.vec.map (fun id => (e.1, some b.1, id))) ++
        e.2.regular.vec.map (fun id => (e.1, none, id)) → x.1 = e.1 := by
      intro e hh
      rcases List.mem_append.mp hh with hh | hh
      · obtain ⟨b, _, hb⟩ := List.mem_flatMap.mp hh
        obtain ⟨i, _, hi⟩ := List.mem_map.mp hb
        rw [← hi]
      · obtain ⟨i, _, hi⟩ := List.mem_map.mp hh
        rw [← hi]
    exact (hfst a hx).symm.trans (hfst b hy)

/-! ### A whole packet -/

theorem rotation_nodup (start n : Nat) : (rotation start n).Nodup := by
  unfold rotation List.Nodup
  rw [List.pairwise_map]
  have : (List.range n).Pairwise (fun a b => a < b ∧ b < n) := by
    apply List.Pairwise.imp_of_mem _ List.pairwise_lt_range
    intro a b ha hb hab
    exact ⟨hab, List.mem_range.mp hb⟩
  refine this.imp (fun {a b} hab he => ?_)
  have h1 := Nat.div_add_mod (start + a) n
  have h2 := Nat.div_add_mod (start + b) n
  rw [he] at h1
  have hpos : 0 < n := by omega
  by_cases hd : (start + a) / n = (start + b) / n
  · rw [hd] at h1; omega
  · have hle : (start + a) / n ≤ (start + b) / n := Nat.div_le_div_right (by omega)
    have : (start + a) / n + 1 ≤ (start + b) / n := by omega
    have := Nat.mul_le_mul_left n this
    rw [Nat.mul_add, Nat.mul_one] at this
    omega

/-- How the fair streams were written: along the fast path, or in passes over the groups. -/
inductive FairPart (w : Writer σ γ) (s : Sched σ) (e e' : Env σ γ) (s' : Sched σ) (os : List Offer) : Prop where
  | none : s.groups = [] → s'.groups = [] → os = [] → e' = e → FairPart w s e e' s' os
  | fast (r : Option Nat) : s.groups ≠ [] → s.single = true → s'.groups = s.groups → s'.groupNext = s.groupNext →
      (∀ o ∈ os, ∃ x, imFind e.map o.id = some x ∧ x.fair = true) →
      (match r with
        | some i => s'.rrNext = (i + 1) % e.map.length ∧ (∃ o ∈ os, o.turn = .full) ∧
          ∃ pre post, rotation (clamp s.rrNext e.map.length) e.map.length = pre ++ i :: post ∧
            ∀ j ∈ pre ++ [i], FastVisited w e.map os j
        | none => s'.rrNext = clamp s.rrNext e.map.length ∧ ∀ j < e.map.length, FastVisited w e.map os j) →
      FairPart w s e e' s' os
  | slow (r : Option Nat) : s.groups ≠ [] → s.single = false → shapes s'.groups = shapes s.groups →
      OrdQ s.groups os →
      (match r with
        | some i => s'.groupNext = (i + 1) % s.groups.length ∧ (∃ o ∈ os, o.turn = .full) ∧
          ∃ pre post, rotation (clamp s.groupNext s.groups.length) s.groups.length = pre ++ i :: post ∧
            ∀ j ∈ pre ++ [i], Visited s.groups os j
        | none => (∀ j, Visited s.groups os j) ∧
          ∃ os1 os2, os = os1 ++ os2 ∧ (∀ o ∈ os2, o.turn = .nothing) ∧
            ∀ g o id, queuedIn s.groups g o id → id ∈ os2.map (·.id)) →
      FairPart w s e e' s' os

theorem single_false_length {s : Sched σ} (h : s.groups ≠ []) : 0 < s.groups.length := List.length_pos_iff.mpr h

/-- The fair streams. -/
theorem writeFair_spec {w : Writer σ γ} (hw : WriterOk w) {s : Sched σ} (h : SOk s) (e : Env σ γ)
    (hm : sets e.map = sets s.map) :
    ∃ os, Did w e (s.writeFair w e).2 os ∧ (s.writeFair w e).1.map = (s.writeFair w e).2.map ∧
      (s.writeFair w e).1.hasEnded = s.hasEnded ∧ SOk (s.writeFair w e).1 ∧
      FairPart w s e (s.writeFair w e).2 (s.writeFair w e).1 os := by
  have hk : Keys e.map := sets_Keys hm h.keys
  have hmem : ∀ g o id, queuedIn s.groups g o id → id ∈ e.map.map (·.1) := by
    intro g o id hq
    obtain ⟨x, hx, _⟩ := (h.mem _ _ _).mp hq
    rw [sets_keys hm]
    exact List.mem_map.mpr ⟨_, mem_of_imFind hx, rfl⟩
  unfold Sched.writeFair
  by_cases hg : s.groups = []
  · rw [if_pos hg]
    exact ⟨[], Did.nil e, rfl, rfl, h.written hm rfl, .none hg hg rfl rfl⟩
  · rw [if_neg hg]
    by_cases hs : s.single = true
    · rw [if_pos hs]
      dsimp only
      obtain ⟨e', r, os, h1, h2, h3, h4⟩ := fast_spec hw (rotation (clamp s.rrNext e.map.length) e.map.length)
        (rotation_nodup _ _) e hk
      rw [h1]
      cases r with
      | none =>
        refine ⟨os, h2, rfl, rfl, h.written (h2.sets.trans hm) rfl, .fast none hg hs rfl rfl h3 ⟨rfl, fun j hj => ?_⟩⟩
        exact h4 j (mem_rotation hj (clamp_lt (by omega)))
      | some i => exact ⟨os, h2, rfl, rfl, h.written (h2.sets.trans hm) rfl, .fast (some i) hg hs rfl rfl h3 ⟨rfl, h4⟩⟩
    · rw [if_neg hs]
      have hs' : s.single = false := Bool.not_eq_true _ ▸ hs
      dsimp only
      obtain ⟨gs', e', r, os, h1, h2, h3, h4, h5⟩ := passes_spec hw h.gw h.uniq h.ne (clamp s.groupNext s.groups.length)
        (e.rem + 1) s.groups e rfl hk hmem (by omega) (clamp_lt (single_false_length hg))
      rw [h1]
      cases r with
      | none => exact ⟨os, h2, rfl, rfl, h.written (h2.sets.trans hm) h3, .slow none hg hs' h3 h4 h5⟩
      | some i => exact ⟨os, h2, rfl, rfl, h.written (h2.sets.trans hm) h3, .slow (some i) hg hs' h3 h4 ⟨rfl, h5⟩⟩

/-- A whole packet. -/
theorem writeFrames_spec {w : Writer σ γ} (hw : WriterOk w) {s : Sched σ} (h : SOk s) (sh : γ) (rem : Nat) :
    ∃ e1 os1 os2, Did w { map := s.map, sh, rem } e1 os1 ∧ (os1.map (·.id)).Sublist (s.map.map (·.1)) ∧
      (∀ o ∈ os1, ∃ x, imFind s.map o.id = some x ∧ x.fair = false) ∧
      ((∃ o ∈ os1, o.turn = .full) ∨ ∀ id x, imFind s.map id = some x → x.fair = false → w.has x.st = true →
        id ∈ os1.map (·.id)) ∧
      (∀ id x, imFind s.map id = some x → x.fair = true → imFind e1.map id = some x) ∧
      Did w e1 (s.writeFrames w sh rem).2 os2 ∧
      (s.writeFrames w sh rem).1.map = (s.writeFrames w sh rem).2.map ∧
      (s.writeFrames w sh rem).1.hasEnded = s.hasEnded ∧ SOk (s.writeFrames w sh rem).1 ∧
      FairPart w s e1 (s.writeFrames w sh rem).2 (s.writeFrames w sh rem).1 os2 ∧
      (s.writeFrames w sh rem).2.calls = os1 ++ os2 := by
  have hnd : (s.map.map (·.1)).Nodup := h.keys
  obtain ⟨os1, h1, h2, h3, h4, h5⟩ := unfair_spec hw (s.map.map (·.1)) hnd ({ map := s.map, sh, rem } : Env σ γ) h.keys
  obtain ⟨os2, k1, k2, k3, k4, k5⟩ := writeFair_spec hw h (unfair w { map := s.map, sh, rem } (s.map.map (·.1))) h1.sets
  refine ⟨_, os1, os2, h1, h2, h3, ?_, h5, k1, k2, k3, k4, k5, ?_⟩
  · rcases h4 with h4 | h4
    · exact Or.inl h4
    · exact Or.inr (fun id x hx => h4 id (List.mem_map.mpr ⟨_, mem_of_imFind hx, rfl⟩) x hx)
  · show (s.writeFair w (unfair w { map := s.map, sh, rem } (s.map.map (·.1)))).2.log.reverse = _
    rw [k1.log, h1.log]
    simp

/-! ### Histories -/

/-- An ended stream is waiting to be removed. -/
def EndedSeen (w : Writer σ γ) (s : Sched σ) : Prop :=
  ∀ id x, imFind s.map id = some x → w.ended x.st = true → s.hasEnded = true

theorem any_ended {w : Writer σ γ} {s : Sched σ} (hk : Keys s.map) :
    EndedSeen w s ↔ ((s.map.map (fun e => w.ended e.2.st)).any id = true → s.hasEnded = true) := by
  unfold EndedSeen
  constructor
  · intro h hh
    rw [List.any_map, List.any_eq_true] at hh
    obtain ⟨e, he, hee⟩ := hh
    exact h e.1 e.2 (hk.find he) hee
  · intro h id x hx hxe
    apply h
    rw [List.any_map, List.any_eq_true]
    exact ⟨(id, x), mem_of_imFind hx, hxe⟩

theorem EndedSeen.set {w : Writer σ γ} {s s' : Sched σ} (h : EndedSeen w s) {id : Nat} {x y : Strm σ}
    (hx : imFind s.map id = some x) (hm : s'.map = imSet s.map id y) (hE : s.hasEnded = true → s'.hasEnded = true)
    (hy : w.ended y.st = true → s'.hasEnded = true) : EndedSeen w s' := by
  intro j z hz hze
  rw [hm, imFind_imSet] at hz
  by_cases hj : j = id
  · rw [if_pos hj, hx] at hz
    obtain rfl := Option.some.inj hz
    exact hy hze
  · rw [if_neg hj] at hz
    exact hE (h j z hz hze)

/-- Every history keeps the invariant, and no call panics. -/
theorem exec_spec {w : Writer σ γ} (hw : WriterOk w) {s : Sched σ} (h : SOk s) (op : Op σ γ) (ha : op.Allowed s) :
    (∃ s', s.exec w op = .ok s' ∧ SOk s') ∨
    s.exec w op = .error .invalidStreamId ∨ s.exec w op = .error .invalidInput := by
  cases op with
  | insert id st => exact Or.inl ⟨_, rfl, insert_ok h st ha⟩
  | group id g =>
    rcases setSendGroup_spec h id g with ⟨s', h1, h2, _⟩ | ⟨h1, _⟩ | ⟨h1, _⟩
    · exact Or.inl ⟨s', h1, h2⟩
    · exact Or.inr (Or.inl h1)
    · exact Or.inr (Or.inr h1)
  | order id o =>
    rcases setSendOrder_spec h id o with ⟨s', h1, h2, _⟩ | ⟨h1, _⟩
    · exact Or.inl ⟨s', h1, h2⟩
    · exact Or.inr (Or.inl h1)
  | fair id b =>
    rcases setFairness_spec h id b with ⟨s', h1, h2, _⟩ | ⟨h1, _⟩
    · exact Or.inl ⟨s', h1, h2⟩
    · exact Or.inr (Or.inl h1)
  | acked id f => exact Or.inl ⟨_, rfl, acked_ok w h id f⟩
  | touch id f => exact Or.inl ⟨_, rfl, touch_ok h id f⟩
  | write sh rem =>
    obtain ⟨e1, os1, os2, _, _, _, _, _, _, _, _, h9, _, _⟩ := writeFrames_spec hw h sh rem
    exact Or.inl ⟨_, rfl, h9⟩
  | removeEnded =>
    obtain ⟨s', b, h1, h2, _⟩ := removeEnded_spec w h
    refine Or.inl ⟨s', ?_, h2⟩
    show (s.removeEnded w).map (·.1) = _
    rw [h1]
    rfl
  | clear => exact Or.inl ⟨_, rfl, SOk.nil⟩

/-- Ended streams are noted as long as only acknowledgments end them. -/
theorem exec_seen {w : Writer σ γ} (hw : WriterOk w) (hn : WriterEnds w) {s s' : Sched σ} (h : SOk s)
    (he : EndedSeen w s) (op : Op σ γ) (ha : op.Noted w s) (hs : s.exec w op = .ok s') : EndedSeen w s' := by
  cases op with
  | insert id st =>
    obtain rfl := Except.ok.inj hs
    intro j x hx hxe
    have : imFind (s.insert id st).map j = if j = id then some { st } else imFind s.map j := imFind_imInsert s.map id j _
    rw [this] at hx
    split at hx
    · obtain rfl := Option.some.inj hx
      have ha : w.ended st = false := ha
      rw [show w.ended st = true from hxe] at ha
      cases ha
    · exact he j x hx hxe
  | group id g =>
    rcases setSendGroup_spec h id g with ⟨s1, h1, h2, x, h3, h4, h5, _⟩ | ⟨h1, _⟩ | ⟨h1, _⟩
    · obtain rfl := Except.ok.inj (hs.symm.trans h1)
      exact he.set h3 h4 (fun hh => by rw [h5]; exact hh) (fun hh => by rw [h5]; exact he id x h3 hh)
    · cases hs.symm.trans h1
    · cases hs.symm.trans h1
  | order id o =>
    rcases setSendOrder_spec h id o with ⟨s1, h1, h2, x, h3, h4, h5⟩ | ⟨h1, _⟩
    · obtain rfl := Except.ok.inj (hs.symm.trans h1)
      exact he.set h3 h4 (fun hh => by rw [h5]; exact hh) (fun hh => by rw [h5]; exact he id x h3 hh)
    · cases hs.symm.trans h1
  | fair id b =>
    rcases setFairness_spec h id b with ⟨s1, h1, h2, x, h3, h4, h5⟩ | ⟨h1, _⟩
    · obtain rfl := Except.ok.inj (hs.symm.trans h1)
      exact he.set h3 h4 (fun hh => by rw [h5]; exact hh) (fun hh => by rw [h5]; exact he id x h3 hh)
    · cases hs.symm.trans h1
  | acked id f =>
    obtain rfl := Except.ok.inj hs
    unfold Sched.acked
    cases hx : imFind s.map id with
    | none => exact he
    | some x =>
      refine he.set hx rfl (fun hh => ?_) (fun hh => ?_)
      · show (s.hasEnded || _) = true
        rw [hh]; rfl
      · show (s.hasEnded || w.ended (f x.st)) = true
        rw [show w.ended (f x.st) = true from hh, Bool.or_true]
  | touch id f =>
    obtain rfl := Except.ok.inj hs
    unfold Sched.touch
    cases hx : imFind s.map id with
    | none => exact he
    | some x => exact he.set hx rfl (fun hh => hh) (fun hh => he id x hx (ha x hx hh))
  | write sh rem =>
    obtain rfl := Except.ok.inj hs
    obtain ⟨e1, os1, os2, h1, _, _, _, _, h6, h7, h8, h9, _, _⟩ := writeFrames_spec hw h sh rem
    rw [any_ended h9.keys, h7, h6.keep w.ended hn, h1.keep w.ended hn, h8]
    exact (any_ended h.keys).mp he
  | removeEnded =>
    obtain ⟨s1, b, h1, h2, h3, h4⟩ := removeEnded_spec w h
    have hs : (s.removeEnded w).map (·.1) = .ok s' := hs
    rw [h1] at hs
    obtain rfl : s1 = s' := Except.ok.inj hs
    cases hE : s.hasEnded with
    | false => rw [(h3 hE).1]; exact he
    | true =>
      obtain ⟨k1, k2, _⟩ := h4 hE
      intro id x hx hxe
      rw [k1, imFind_filter h.keys] at hx
      have := (Option.filter_eq_some_iff.mp hx).2
      rw [hxe] at this
      cases this
  | clear =>
    obtain rfl := Except.ok.inj hs
    intro id x hx
    cases hx

theorem reach_ok {w : Writer σ γ} (hw : WriterOk w) {q : Prop} {s : Sched σ} (h : Reach w q s) : SOk s := by
  induction h with
  | init => exact SOk.nil
  | step op _ ha _ he ih =>
    rcases exec_spec hw ih op ha with ⟨s', h1, h2⟩ | h1 | h1
    · rw [he] at h1
      obtain rfl := Except.ok.inj h1
      exact h2
    · rw [he] at h1; cases h1
    · rw [he] at h1; cases h1

theorem reach_seen {w : Writer σ γ} (hw : WriterOk w) (hn : WriterEnds w) {s : Sched σ} (h : Reach w True s) :
    EndedSeen w s := by
  induction h with
  | init => exact fun _ _ hx => by cases hx
  | step op h ha hq he ih => exact exec_seen hw hn (reach_ok hw h) ih op (hq trivial) he

end Neqo.Sched
