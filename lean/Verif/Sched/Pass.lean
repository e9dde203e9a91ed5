import Verif.Sched.Write

namespace Neqo.Sched

variable {σ γ : Type}

/-! ### What turns leave unchanged -/

theorem Queues.mem_iff {q : Queues} (hq : QOk q) (o : Option Nat) (id : Nat) :
    q.mem o id ↔ match o with
      | some o => ∃ b ∈ q.shape.1, b.1 = o ∧ id ∈ b.2
      | none => id ∈ q.shape.2 := by
  cases o with
  | none => exact Iff.rfl
  | some o =>
    show id ∈ ((SMap.find q.ordered o).getD {}).vec ↔ ∃ b ∈ q.shape.1, b.1 = o ∧ id ∈ b.2
    constructor
    · intro h
      cases hf : SMap.find q.ordered o with
      | none => rw [hf] at h; cases h
      | some g =>
        rw [hf] at h
        exact ⟨(o, g.vec), List.mem_map.mpr ⟨(o, g), hq.sorted.find_eq_some.mp hf, rfl⟩, rfl, h⟩
    · rintro ⟨b, hb, rfl, h⟩
      obtain ⟨c, hc, rfl⟩ := List.mem_map.mp hb
      rw [hq.sorted.find_eq_some.mpr (show (c.1, c.2) ∈ q.ordered from hc)]
      exact h

theorem QOk.shape {q q' : Queues} (hq : QOk q) (h : q'.shape = q.shape) : QOk q' := by
  obtain ⟨h1, h2⟩ := Prod.mk.inj h
  have hmem : ∀ e ∈ q'.ordered, ∃ e' ∈ q.ordered, e'.2.vec = e.2.vec := by
    intro e he
    have : (e.1, e.2.vec) ∈ q.ordered.map (fun e => (e.1, e.2.vec)) := by
      rw [← h1]; exact List.mem_map.mpr ⟨e, he, rfl⟩
    obtain ⟨e', he', hh⟩ := List.mem_map.mp this
    exact ⟨e', he', (Prod.mk.inj hh).2⟩
  refine ⟨?_, fun e he => ?_, fun e he => ?_, ?_⟩
  · have hs := hq.sorted
    unfold SMap.Sorted at hs ⊢
    have a : ∀ l : List (Nat × Og), l.Pairwise (fun a b => a.1 < b.1) ↔
        (l.map (fun e => (e.1, e.2.vec))).Pairwise (fun a b => a.1 < b.1) := by
      intro l
      rw [List.pairwise_map]
    rw [a, h1, ← a]
    exact hs
  · obtain ⟨e', he', hh⟩ := hmem e he
    rw [← hh]; exact hq.ne e' he'
  · obtain ⟨e', he', hh⟩ := hmem e he
    rw [← hh]; exact hq.asc e' he'
  · rw [h2]; exact hq.reg

theorem Queues.mem_shape {q q' : Queues} (hq : QOk q) (h : q'.shape = q.shape) (o : Option Nat) (id : Nat) :
    q'.mem o id ↔ q.mem o id := by
  rw [Queues.mem_iff hq, Queues.mem_iff (hq.shape h), h]

/-- The groups, without the cursors. -/
def shapes (gs : List (Nat × Queues)) : List (Nat × (List (Nat × List Nat) × List Nat)) :=
  gs.map (fun e => (e.1, e.2.shape))

theorem shapes_length {gs gs' : List (Nat × Queues)} (h : shapes gs' = shapes gs) : gs'.length = gs.length := by
  have := congrArg List.length h
  unfold shapes at this
  rw [List.length_map, List.length_map] at this
  exact this

theorem shapes_keys {gs gs' : List (Nat × Queues)} (h : shapes gs' = shapes gs) : gs'.map (·.1) = gs.map (·.1) := by
  have := congrArg (List.map (·.1)) h
  unfold shapes at this
  rw [List.map_map, List.map_map] at this
  exact this

theorem shapes_find {gs gs' : List (Nat × Queues)} (h : shapes gs' = shapes gs) (gid : Nat) :
    (imFind gs' gid).map Queues.shape = (imFind gs gid).map Queues.shape := by
  induction gs generalizing gs' with
  | nil =>
    cases gs' with
    | nil => rfl
    | cons e l => cases h
  | cons e gs ih =>
    cases gs' with
    | nil => cases h
    | cons e' gs' =>
      unfold shapes at h
      rw [List.map_cons, List.map_cons] at h
      obtain ⟨h1, h2⟩ := List.cons.inj h
      obtain ⟨a, b⟩ := Prod.mk.inj h1
      rw [imFind_cons, imFind_cons, a]
      by_cases hk : e.1 = gid
      · rw [if_pos hk, if_pos hk, Option.map_some, Option.map_some, b]
      · rw [if_neg hk, if_neg hk]
        exact ih h2

theorem shapes_get {gs gs' : List (Nat × Queues)} (h : shapes gs' = shapes gs) (i : Nat) {gid : Nat} {q : Queues}
    (hq : gs'[i]? = some (gid, q)) : ∃ q0, gs[i]? = some (gid, q0) ∧ q.shape = q0.shape := by
  have := congrArg (·[i]?) h
  unfold shapes at this
  rw [List.getElem?_map, List.getElem?_map, hq] at this
  cases hg : gs[i]? with
  | none => rw [hg] at this; cases this
  | some e =>
    rw [hg, Option.map_some, Option.map_some] at this
    obtain ⟨a, b⟩ := Prod.mk.inj (Option.some.inj this)
    obtain ⟨g, q0⟩ := e
    dsimp only at a b
    exact ⟨q0, by rw [a], b⟩

theorem shapes_set {gs : List (Nat × Queues)} {i gid : Nat} {q q' : Queues} (hg : gs[i]? = some (gid, q))
    (h : q'.shape = q.shape) : shapes (gs.set i (gid, q')) = shapes gs := by
  unfold shapes
  rw [List.map_set]
  apply List.ext_getElem?
  intro j
  rw [List.getElem?_set]
  by_cases hj : i = j
  · rw [if_pos hj]
    subst hj
    rw [List.length_map, List.getElem?_map, hg]
    have : i < gs.length := (List.getElem?_eq_some_iff.mp hg).1
    rw [if_pos this, Option.map_some, h]
  · rw [if_neg hj]

theorem GW.shapes {gs gs' : List (Nat × Queues)} (hg : GW gs) (h : shapes gs' = shapes gs) : GW gs' := by
  refine ⟨?_, fun gid q hq => ?_⟩
  · unfold Keys
    rw [shapes_keys h]
    exact hg.keys
  · have := shapes_find h gid
    rw [hq] at this
    cases hf : imFind gs gid with
    | none => rw [hf] at this; cases this
    | some q0 =>
      rw [hf] at this
      exact (hg.q gid q0 hf).shape (Option.some.inj this)

theorem queuedIn_shapes {gs gs' : List (Nat × Queues)} (hg : GW gs) (h : shapes gs' = shapes gs) (gid : Nat)
    (o : Option Nat) (id : Nat) : queuedIn gs' gid o id ↔ queuedIn gs gid o id := by
  have := shapes_find h gid
  unfold queuedIn queuesOf
  cases hf : imFind gs gid with
  | none =>
    rw [hf] at this
    cases hf' : imFind gs' gid with
    | none => exact Iff.rfl
    | some q => rw [hf'] at this; cases this
  | some q =>
    rw [hf] at this
    cases hf' : imFind gs' gid with
    | none => rw [hf'] at this; cases this
    | some q' =>
      rw [hf'] at this
      exact Queues.mem_shape (hg.q gid q hf) (Option.some.inj this) o id

theorem NonEmpty.shapes {gs gs' : List (Nat × Queues)} (hg : NonEmpty gs) (h : shapes gs' = shapes gs) :
    NonEmpty gs' := by
  intro gid q hq
  have := shapes_find h gid
  rw [hq] at this
  cases hf : imFind gs gid with
  | none => rw [hf] at this; cases this
  | some q0 =>
    rw [hf] at this
    have hs := Option.some.inj this
    have he := hg gid q0 hf
    obtain ⟨h1, h2⟩ := Prod.mk.inj hs
    unfold Queues.isEmpty at he ⊢
    rw [decide_eq_false_iff_not] at he ⊢
    rintro ⟨a, b⟩
    apply he
    rw [← h2, a]
    refine ⟨rfl, ?_⟩
    rw [b] at h1
    exact List.map_eq_nil_iff.mp h1.symm

/-- The invariant, after streams have written. -/
theorem SOk.written {s s' : Sched σ} (h : SOk s) (hm : sets s'.map = sets s.map)
    (hs : shapes s'.groups = shapes s.groups) : SOk s' := by
  have hback : ∀ id x, imFind s'.map id = some x → ∃ st, imFind s.map id = some { x with st } :=
    fun id x hx => sets_find hm.symm id hx
  refine ⟨sets_Keys hm h.keys, h.gw.shapes hs, h.ne.shapes hs, fun g o id => ?_, fun id x hx => ?_,
    fun id x hx => ?_⟩
  · rw [queuedIn_shapes h.gw hs, h.mem]
    constructor
    · rintro ⟨x, hx, a⟩
      obtain ⟨st, hst⟩ := sets_find hm id hx
      exact ⟨_, hst, a⟩
    · rintro ⟨x, hx, a⟩
      obtain ⟨st, hst⟩ := hback id x hx
      exact ⟨_, hst, a⟩
  · obtain ⟨st, hst⟩ := hback id x hx
    exact fun hf => h.unf id { x with st } hst hf
  · obtain ⟨st, hst⟩ := hback id x hx
    exact fun hf => h.nn id { x with st } hst hf

/-! ### A pass over the groups -/

/-- No stream is queued twice. -/
def Uniq (gs : List (Nat × Queues)) : Prop :=
  ∀ g g' o o' id, queuedIn gs g o id → queuedIn gs g' o' id → g = g' ∧ o = o'

/-- Both are queued in the same group. -/
def same (gs : List (Nat × Queues)) (b a : Nat) : Prop :=
  ∃ g ob oa, queuedIn gs g ob b ∧ queuedIn gs g oa a

/-- Both are queued in the same group, and the first has the higher order. -/
def before (gs : List (Nat × Queues)) (b a : Nat) : Prop :=
  ∃ g ob oa, queuedIn gs g ob b ∧ queuedIn gs g oa a ∧ higher ob oa

theorem SOk.uniq {s : Sched σ} (h : SOk s) : Uniq s.groups := by
  intro g g' o o' id h1 h2
  obtain ⟨x, hx, _, a, b⟩ := (h.mem _ _ _).mp h1
  obtain ⟨y, hy, _, a', b'⟩ := (h.mem _ _ _).mp h2
  rw [hx] at hy
  obtain rfl := Option.some.inj hy
  exact ⟨a.symm.trans a', b.symm.trans b'⟩

/-- A stream of the group was offered the packet. -/
def Visited (gs : List (Nat × Queues)) (os : List Offer) (i : Nat) : Prop :=
  ∀ gid q, gs[i]? = some (gid, q) → ∃ x ∈ os, ∃ o, queuedIn gs gid o x.id

theorem Visited.mono {gs : List (Nat × Queues)} {os os' : List Offer} {i : Nat} (h : Visited gs os i)
    (hs : ∀ o ∈ os, o ∈ os') : Visited gs os' i := by
  intro gid q hq
  obtain ⟨x, hx, ho⟩ := h gid q hq
  exact ⟨x, hs x hx, ho⟩

theorem imFind_get {gs : List (Nat × Queues)} (hk : Keys gs) {i gid : Nat} {q : Queues}
    (h : gs[i]? = some (gid, q)) : imFind gs gid = some q :=
  hk.find (List.mem_of_getElem? h)

theorem Res.first {s : List Nat} {os : List Offer} {t : Turn} (h : Res s os t) (hne : s ≠ []) :
    ∃ x ∈ os, x.id ∈ s := by
  cases h with
  | @nothing hq =>
    cases os with
    | nil => exact absurd rfl hne
    | cons o os => exact ⟨o, List.mem_cons_self, List.mem_cons_self⟩
  | @stop pre o rest hp ho =>
    refine ⟨o, List.mem_append_right _ List.mem_cons_self, ?_⟩
    apply List.mem_append_left
    exact List.mem_map.mpr ⟨o, List.mem_append_right _ List.mem_cons_self, rfl⟩

theorem seq_queuedIn {gs : List (Nat × Queues)} (hg : GW gs) {i gid : Nat} {q : Queues}
    (h : gs[i]? = some (gid, q)) (id : Nat) : id ∈ q.seq ↔ ∃ o, queuedIn gs gid o id := by
  have hf := imFind_get hg.keys h
  rw [Queues.mem_seq (hg.q gid q hf)]
  unfold queuedIn queuesOf
  rw [hf]
  exact Iff.rfl

theorem Res.mem {s : List Nat} {os : List Offer} {t : Turn} (h : Res s os t) {x : Offer} (hx : x ∈ os) :
    x.id ∈ s := by
  cases h with
  | nothing _ => exact List.mem_map.mpr ⟨x, hx, rfl⟩
  | stop rest _ _ => exact List.mem_append_left _ (List.mem_map.mpr ⟨x, hx, rfl⟩)

/-- The calls are in order, and to queued streams. -/
def OrdQ (gs : List (Nat × Queues)) (os : List Offer) : Prop :=
  Ordered (before gs) (same gs) os ∧ ∀ x ∈ os, ∃ g o, queuedIn gs g o x.id

theorem OrdQ.nil (gs : List (Nat × Queues)) : OrdQ gs [] := ⟨Ordered.nil _ _, fun _ h => by cases h⟩

theorem OrdQ.append {gs : List (Nat × Queues)} {l1 l2 : List Offer} (h1 : OrdQ gs l1) (h2 : OrdQ gs l2) :
    OrdQ gs (l1 ++ l2) :=
  ⟨h1.1.append h2.1, fun x hx => (List.mem_append.mp hx).elim (h1.2 x) (h2.2 x)⟩

/-- The turn of a group. -/
theorem group_turn {w : Writer σ γ} (hw : WriterOk w) {gs0 gs : List (Nat × Queues)} (hg : GW gs0) (hu : Uniq gs0)
    (hne : NonEmpty gs0) (hsh : shapes gs = shapes gs0) {e : Env σ γ} (hk : Keys e.map)
    (hm : ∀ g o id, queuedIn gs0 g o id → id ∈ e.map.map (·.1)) {i gid : Nat} {q : Queues}
    (hq : gs[i]? = some (gid, q)) :
    ∃ q' e' t os, q.turn w e = (q', e', t) ∧ Did w e e' os ∧ shapes (gs.set i (gid, q')) = shapes gs0 ∧
      OrdQ gs0 os ∧ Visited gs0 os i ∧
      (t ≠ .nothing → ∃ o ∈ os, o.turn = t) ∧
      (t = .nothing → (∀ o ∈ os, o.turn = .nothing) ∧ ∀ o id, queuedIn gs0 gid o id → id ∈ os.map (·.id)) := by
  have hg' := hg.shapes hsh
  have hf := imFind_get hg'.keys hq
  have hqok := hg'.q gid q hf
  have hseq : ∀ id, id ∈ q.seq ↔ ∃ o, queuedIn gs0 gid o id := by
    intro id
    rw [seq_queuedIn hg' hq]
    constructor
    · rintro ⟨o, h⟩; exact ⟨o, (queuedIn_shapes hg hsh _ _ _).mp h⟩
    · rintro ⟨o, h⟩; exact ⟨o, (queuedIn_shapes hg hsh _ _ _).mpr h⟩
  have hmem : ∀ o id, q.mem o id ↔ queuedIn gs0 gid o id := by
    intro o id
    rw [← queuedIn_shapes hg hsh]
    unfold queuedIn queuesOf
    rw [hf]
    exact Iff.rfl
  obtain ⟨q', e', t, os, h1, h2, h3, h4⟩ := q.turn_spec hw e hk
    (by
      intro b hb id hid
      refine hm gid (some b.1) id ((hmem _ _).mp ?_)
      show id ∈ ((SMap.find q.ordered b.1).getD {}).vec
      rw [hqok.sorted.find_eq_some.mpr (show (b.1, b.2) ∈ q.ordered from hb)]
      exact hid)
    (fun id hid => hm gid none id ((hmem _ _).mp hid))
  refine ⟨q', e', t, os, h1, h2, ?_, ?_, ?_, fun ht => h3.last ht, fun ht => ?_⟩
  · rw [shapes_set hq h4, hsh]
  · refine ⟨?_, fun x hx => (hseq x.id).mp (h3.mem hx) |>.elim (fun o ho => ⟨gid, o, ho⟩)⟩
    apply h3.ordered
    · rintro a ha b ⟨g, ob, oa, k1, k2, k3⟩
      obtain ⟨o, ho⟩ := (hseq a).mp ha
      obtain ⟨rfl, rfl⟩ := hu _ _ _ _ _ ho k2
      refine ⟨(hseq b).mpr ⟨ob, k1⟩, ?_⟩
      rintro rfl
      obtain ⟨_, rfl⟩ := hu _ _ _ _ _ k1 k2
      exact not_higher_self _ k3
    · intro a ha b hb
      obtain ⟨oa, hoa⟩ := (hseq a).mp ha
      obtain ⟨ob, hob⟩ := (hseq b).mp hb
      exact ⟨gid, ob, oa, hob, hoa⟩
    · classical
      have := Queues.seq_pairwise hqok (fun id => if h : ∃ o, q.mem o id then h.choose else none) (by
        intro o id hid
        have hex : ∃ o, q.mem o id := ⟨o, hid⟩
        rw [dif_pos hex]
        exact (hu _ _ _ _ _ ((hmem _ _).mp hex.choose_spec) ((hmem _ _).mp hid)).2)
      apply List.Pairwise.imp_of_mem _ this
      intro a b ha hb hn
      rintro ⟨g, ob, oa, k1, k2, k3⟩
      apply hn
      have hexa : ∃ o, q.mem o a := (Queues.mem_seq hqok).mp ha
      have hexb : ∃ o, q.mem o b := (Queues.mem_seq hqok).mp hb
      rw [dif_pos hexa, dif_pos hexb]
      rw [(hu _ _ _ _ _ ((hmem _ _).mp hexa.choose_spec) k2).2,
        (hu _ _ _ _ _ ((hmem _ _).mp hexb.choose_spec) k1).2]
      exact k3
  · intro gid' q0 hq0
    obtain ⟨q1, hq1, hsq⟩ := shapes_get hsh i hq
    rw [hq1] at hq0
    obtain ⟨rfl, rfl⟩ := Prod.mk.inj (Option.some.inj hq0)
    have hnil : q.seq ≠ [] := by
      intro hn
      have hemp : q.isEmpty = true := by
        rw [Queues.isEmpty_iff hqok]
        intro o id hid
        have := (Queues.mem_seq hqok).mpr ⟨o, hid⟩
        rw [hn] at this
        cases this
      have := hne.shapes hsh gid q hf
      rw [hemp] at this
      cases this
    obtain ⟨x, hx, hxs⟩ := h3.first hnil
    exact ⟨x, hx, (hseq _).mp hxs⟩
  · subst ht
    have : (∀ o ∈ os, o.turn = .nothing) ∧ q.seq = os.map (·.id) := by
      generalize q.seq = z at h3
      generalize htt : Turn.nothing = tt at h3
      cases h3 with
      | nothing hh => exact ⟨hh, rfl⟩
      | stop rest _ hne => exact absurd htt.symm hne
    refine ⟨this.1, fun o id hid => ?_⟩
    rw [← this.2]
    exact (hseq id).mpr ⟨o, hid⟩

/-- A pass over the groups. -/
theorem pass_spec {w : Writer σ γ} (hw : WriterOk w) {gs0 : List (Nat × Queues)} (hg : GW gs0) (hu : Uniq gs0)
    (hne : NonEmpty gs0) (is : List Nat) (gs : List (Nat × Queues)) (e : Env σ γ) (any : Bool)
    (hsh : shapes gs = shapes gs0) (hk : Keys e.map)
    (hm : ∀ g o id, queuedIn gs0 g o id → id ∈ e.map.map (·.1)) :
    ∃ gs' e' p os, pass w is gs e any = (gs', e', p) ∧ Did w e e' os ∧ shapes gs' = shapes gs0 ∧
      OrdQ gs0 os ∧
      match p with
      | .full i => (∃ o ∈ os, o.turn = .full) ∧ ∃ pre post, is = pre ++ i :: post ∧ ∀ j ∈ pre ++ [i], Visited gs0 os j
      | .done b => (∀ j ∈ is, Visited gs0 os j) ∧ (any = true → b = true) ∧
          (b = true → any = true ∨ ∃ o ∈ os, o.turn = .wrote) ∧
          (b = false → (∀ o ∈ os, o.turn = .nothing) ∧
            ∀ j ∈ is, ∀ gid q, gs0[j]? = some (gid, q) → ∀ o id, queuedIn gs0 gid o id → id ∈ os.map (·.id)) := by
  induction is generalizing gs e any with
  | nil =>
    refine ⟨gs, e, _, [], rfl, Did.nil e, hsh, OrdQ.nil _, (fun j hj => by cases hj), id, fun hb => Or.inl hb,
      fun _ => ⟨(fun _ h => by cases h), (fun _ h => by cases h)⟩⟩
  | cons i is ih =>
    unfold pass
    cases hq : gs[i]? with
    | none =>
      dsimp only
      have hnone : gs0[i]? = none := by
        rw [List.getElem?_eq_none_iff] at hq ⊢
        rw [← shapes_length hsh]
        exact hq
      have hvis : ∀ os, Visited gs0 os i := by
        intro os gid q hh
        rw [hnone] at hh
        cases hh
      obtain ⟨gs', e', p, os, h1, h2, h3, h4, h5⟩ := ih gs e any hsh hk hm
      refine ⟨gs', e', p, os, h1, h2, h3, h4, ?_⟩
      cases p with
      | full k =>
        obtain ⟨a, pre, post, hb, hc⟩ := h5
        refine ⟨a, i :: pre, post, by rw [hb]; rfl, fun j hj => ?_⟩
        rcases List.mem_cons.mp hj with rfl | hj
        · exact hvis os
        · exact hc j hj
      | done b =>
        obtain ⟨a, b1, b2, b3⟩ := h5
        refine ⟨fun j hj => ?_, b1, b2, fun hb => ⟨(b3 hb).1, fun j hj gid q hgq => ?_⟩⟩
        · rcases List.mem_cons.mp hj with rfl | hj
          · exact hvis os
          · exact a j hj
        · rcases List.mem_cons.mp hj with rfl | hj
          · rw [hnone] at hgq; cases hgq
          · exact (b3 hb).2 j hj gid q hgq
    | some gq =>
      obtain ⟨gid, q⟩ := gq
      dsimp only
      obtain ⟨q', e1, t, os1, k1, k2, k3, k4, k5, k6, k7⟩ := group_turn hw hg hu hne hsh hk hm hq
      rw [k1]
      have hk1 := sets_Keys k2.sets hk
      have hm1 : ∀ g o id, queuedIn gs0 g o id → id ∈ e1.map.map (·.1) := by
        intro g o id hh
        rw [sets_keys k2.sets]
        exact hm g o id hh
      have cont : ∀ any', (any' = true ↔ any = true ∨ t = .wrote) → t ≠ .full →
          ∃ gs' e' p os, pass w is (gs.set i (gid, q')) e1 any' = (gs', e', p) ∧ Did w e e' os ∧ shapes gs' = shapes gs0 ∧
            OrdQ gs0 os ∧
            match p with
            | .full k => (∃ o ∈ os, o.turn = .full) ∧ ∃ pre post, i :: is = pre ++ k :: post ∧ ∀ j ∈ pre ++ [k], Visited gs0 os j
            | .done b => (∀ j ∈ i :: is, Visited gs0 os j) ∧ (any = true → b = true) ∧
              (b = true → any = true ∨ ∃ o ∈ os, o.turn = .wrote) ∧
              (b = false → (∀ o ∈ os, o.turn = .nothing) ∧
                ∀ j ∈ i :: is, ∀ gid q, gs0[j]? = some (gid, q) → ∀ o id, queuedIn gs0 gid o id → id ∈ os.map (·.id)) := by
        intro any' hany htf
        obtain ⟨gs', e', p, os, h1, h2, h3, h4, h5⟩ := ih (gs.set i (gid, q')) e1 any' k3 hk1 hm1
        have hl : ∀ o ∈ os1, o ∈ os1 ++ os := fun o ho => List.mem_append_left _ ho
        have hr : ∀ o ∈ os, o ∈ os1 ++ os := fun o ho => List.mem_append_right _ ho
        refine ⟨gs', e', p, os1 ++ os, h1, k2.append h2, h3, k4.append h4, ?_⟩
        cases p with
        | full k =>
          obtain ⟨⟨o, ho, hot⟩, pre, post, hb, hc⟩ := h5
          refine ⟨⟨o, hr o ho, hot⟩, i :: pre, post, by rw [hb]; rfl, fun j hj => ?_⟩
          rcases List.mem_cons.mp hj with rfl | hj
          · exact k5.mono hl
          · exact (hc j hj).mono hr
        | done b =>
          obtain ⟨a, b1, b2, b3⟩ := h5
          refine ⟨fun j hj => ?_, fun ha => b1 (hany.mpr (Or.inl ha)), fun hb => ?_, fun hb => ?_⟩
          · rcases List.mem_cons.mp hj with rfl | hj
            · exact k5.mono hl
            · exact (a j hj).mono hr
          · rcases b2 hb with ha | ⟨o, ho, hot⟩
            · rcases hany.mp ha with ha | ha
              · exact Or.inl ha
              · obtain ⟨o, ho, hot⟩ := k6 (by rw [ha]; decide)
                exact Or.inr ⟨o, hl o ho, hot.trans ha⟩
            · exact Or.inr ⟨o, hr o ho, hot⟩
          · have hna : ¬ any' = true := fun hh => by
              have := b1 hh
              rw [hb] at this
              cases this
            have htn : t = .nothing := by
              cases t with
              | nothing => rfl
              | wrote => exact absurd (hany.mpr (Or.inr rfl)) hna
              | full => exact absurd rfl htf
            obtain ⟨c1, c2⟩ := k7 htn
            obtain ⟨d1, d2⟩ := b3 hb
            refine ⟨fun o ho => (List.mem_append.mp ho).elim (c1 o) (d1 o), fun j hj gid' q1 hgq o id hid => ?_⟩
            rw [List.map_append]
            rcases List.mem_cons.mp hj with rfl | hj
            · obtain ⟨q2, hq2, _⟩ := shapes_get hsh j hq
              rw [hq2] at hgq
              obtain ⟨rfl, _⟩ := Prod.mk.inj (Option.some.inj hgq)
              exact List.mem_append_left _ (c2 o id hid)
            · exact List.mem_append_right _ (d2 j hj gid' q1 hgq o id hid)
      cases t with
      | full =>
        dsimp only
        refine ⟨_, _, _, os1, rfl, k2, k3, k4, k6 (by decide), [], is, rfl, fun j hj => ?_⟩
        rw [List.mem_singleton.mp hj]
        exact k5
      | wrote => exact cont true ⟨fun _ => Or.inr rfl, fun _ => rfl⟩ (by decide)
      | nothing => exact cont any ⟨Or.inl, fun h => h.elim id (fun h => by cases h)⟩ (by decide)

theorem mem_rotation {start n i : Nat} (h : i < n) (hs : start < n) : i ∈ rotation start n := by
  unfold rotation
  refine List.mem_map.mpr ⟨(i + n - start) % n, List.mem_range.mpr (Nat.mod_lt _ (by omega)), ?_⟩
  rw [Nat.add_mod_mod, show start + (i + n - start) = i + n by omega, Nat.add_mod_right, Nat.mod_eq_of_lt h]

/-- The number of passes never matters. -/
theorem passes_enough {w : Writer σ γ} (hw : WriterOk w) {gs0 : List (Nat × Queues)} (hg : GW gs0) (hu : Uniq gs0)
    (hne : NonEmpty gs0) (start k k' : Nat) (gs : List (Nat × Queues)) (e : Env σ γ)
    (hsh : shapes gs = shapes gs0) (hk : Keys e.map)
    (hm : ∀ g o id, queuedIn gs0 g o id → id ∈ e.map.map (·.1)) (h1 : e.rem < k) (h2 : e.rem < k') :
    passes w start k gs e = passes w start k' gs e := by
  induction k generalizing k' gs e with
  | zero => omega
  | succ k ih =>
    cases k' with
    | zero => omega
    | succ k' =>
      unfold passes
      obtain ⟨gs', e', p, os, a1, a2, a3, a4, a5⟩ := pass_spec hw hg hu hne (rotation start gs.length) gs e false hsh hk hm
      rw [a1]
      cases p with
      | full i => rfl
      | done b =>
        cases b with
        | false => rfl
        | true =>
          dsimp only
          obtain ⟨_, _, a6, _⟩ := a5
          rcases a6 rfl with hh | ⟨o, ho, hot⟩
          · cases hh
          · have := a2.lt o ho hot
            refine ih k' gs' e' a3 (sets_Keys a2.sets hk) ?_ (by omega) (by omega)
            intro g o id hh
            rw [sets_keys a2.sets]
            exact hm g o id hh

/-- All the passes. -/
theorem passes_spec {w : Writer σ γ} (hw : WriterOk w) {gs0 : List (Nat × Queues)} (hg : GW gs0) (hu : Uniq gs0)
    (hne : NonEmpty gs0) (start k : Nat) (gs : List (Nat × Queues)) (e : Env σ γ)
    (hsh : shapes gs = shapes gs0) (hk : Keys e.map)
    (hm : ∀ g o id, queuedIn gs0 g o id → id ∈ e.map.map (·.1)) (h1 : e.rem < k) (hstart : start < gs0.length) :
    ∃ gs' e' r os, passes w start k gs e = (gs', e', r) ∧ Did w e e' os ∧ shapes gs' = shapes gs0 ∧
      OrdQ gs0 os ∧
      match r with
      | some i => (∃ o ∈ os, o.turn = .full) ∧
          ∃ pre post, rotation start gs0.length = pre ++ i :: post ∧ ∀ j ∈ pre ++ [i], Visited gs0 os j
      | none => (∀ j, Visited gs0 os j) ∧
          ∃ os1 os2, os = os1 ++ os2 ∧ (∀ o ∈ os2, o.turn = .nothing) ∧
            ∀ g o id, queuedIn gs0 g o id → id ∈ os2.map (·.id) := by
  induction k generalizing gs e with
  | zero => omega
  | succ k ih =>
    unfold passes
    rw [shapes_length hsh]
    have hall : ∀ os, (∀ j ∈ rotation start gs0.length, Visited gs0 os j) → ∀ j, Visited gs0 os j := by
      intro os hh j
      by_cases hj : j < gs0.length
      · exact hh j (mem_rotation hj hstart)
      · intro gid q hq
        rw [List.getElem?_eq_none (by omega)] at hq
        cases hq
    obtain ⟨gs', e', p, os, a1, a2, a3, a4, a5⟩ := pass_spec hw hg hu hne (rotation start gs0.length) gs e false hsh hk hm
    rw [a1]
    cases p with
    | full i => exact ⟨_, _, some i, os, rfl, a2, a3, a4, a5⟩
    | done b =>
      cases b with
      | false =>
        obtain ⟨b1, _, _, b4⟩ := a5
        obtain ⟨c1, c2⟩ := b4 rfl
        refine ⟨_, _, none, os, rfl, a2, a3, a4, hall os b1, [], os, rfl, c1, ?_⟩
        intro g o id hid
        have hf : ∃ q, imFind gs0 g = some q := by
          cases hh : imFind gs0 g with
          | some q => exact ⟨q, rfl⟩
          | none =>
            unfold queuedIn queuesOf at hid
            rw [hh] at hid
            exact absurd hid (Queues.not_mem_nil o id)
        obtain ⟨q, hq⟩ := hf
        obtain ⟨j, hj⟩ := List.getElem?_of_mem (mem_of_imFind hq)
        have hlt : j < gs0.length := (List.getElem?_eq_some_iff.mp hj).1
        exact c2 j (mem_rotation hlt hstart) g q hj o id hid
      | true =>
        dsimp only
        obtain ⟨b1, _, b3, _⟩ := a5
        rcases b3 rfl with hh | ⟨o, ho, hot⟩
        · cases hh
        · have hlt := a2.lt o ho hot
          obtain ⟨gs2, e2, r, os2, d1, d2, d3, d4, d5⟩ := ih gs' e' a3 (sets_Keys a2.sets hk)
            (by intro g o id hh; rw [sets_keys a2.sets]; exact hm g o id hh) (by omega)
          have hl : ∀ o ∈ os, o ∈ os ++ os2 := fun o ho => List.mem_append_left _ ho
          refine ⟨gs2, e2, r, os ++ os2, d1, a2.append d2, d3, a4.append d4, ?_⟩
          cases r with
          | none =>
            obtain ⟨_, x1, x2, f1, f2, f3⟩ := d5
            exact ⟨fun j => (hall os b1 j).mono hl, os ++ x1, x2, by rw [f1, List.append_assoc], f2, f3⟩
          | some i =>
            obtain ⟨⟨o', ho', hot'⟩, pre, post, f1, _⟩ := d5
            exact ⟨⟨o', List.mem_append_right _ ho', hot'⟩, pre, post, f1, fun j _ => (hall os b1 j).mono hl⟩

/-! ### The fast path -/

/-- The fair stream at a place was offered the packet, if it had data. -/
def FastVisited (w : Writer σ γ) (m : List (Nat × Strm σ)) (os : List Offer) (j : Nat) : Prop :=
  ∀ id x, m[j]? = some (id, x) → x.fair = true → w.has x.st = true → id ∈ os.map (·.id)

theorem imSet_get {m : List (Nat × Strm σ)} {id id' : Nat} {x y : Strm σ} {j : Nat}
    (h : m[j]? = some (id, x)) (hn : id ≠ id') : (imSet m id' y)[j]? = some (id, x) := by
  unfold imSet
  rw [List.getElem?_map, h, Option.map_some, if_neg hn]

theorem keys_get {m : List (Nat × Strm σ)} (hk : Keys m) {i j id : Nat} {x y : Strm σ}
    (hi : m[i]? = some (id, x)) (hj : m[j]? = some (id, y)) : i = j := by
  have h1 : (m.map (·.1))[i]? = some id := by rw [List.getElem?_map, hi]; rfl
  have h2 : (m.map (·.1))[j]? = some id := by rw [List.getElem?_map, hj]; rfl
  obtain ⟨l1, e1⟩ := List.getElem?_eq_some_iff.mp h1
  obtain ⟨l2, e2⟩ := List.getElem?_eq_some_iff.mp h2
  exact (List.getElem_inj hk).mp (e1.trans e2.symm)

theorem fast_spec {w : Writer σ γ} (hw : WriterOk w) (is : List Nat) (hnd : is.Nodup) (e : Env σ γ) (hk : Keys e.map) :
    ∃ e' r os, fast w e is = (e', r) ∧ Did w e e' os ∧
      (∀ o ∈ os, ∃ x, imFind e.map o.id = some x ∧ x.fair = true) ∧
      match r with
      | some i => (∃ o ∈ os, o.turn = .full) ∧
          ∃ pre post, is = pre ++ i :: post ∧ ∀ j ∈ pre ++ [i], FastVisited w e.map os j
      | none => ∀ j ∈ is, FastVisited w e.map os j := by
  induction is generalizing e with
  | nil => exact ⟨e, none, [], rfl, Did.nil e, (fun _ h => by cases h), (fun _ h => by cases h)⟩
  | cons i is ih =>
    have hni := (List.nodup_cons.mp hnd).1
    have hnd' := (List.nodup_cons.mp hnd).2
    have skip : (∀ id x, e.map[i]? = some (id, x) → ¬ (x.fair = true ∧ w.has x.st = true)) →
        ∃ e' r os, fast w e is = (e', r) ∧ Did w e e' os ∧
          (∀ o ∈ os, ∃ x, imFind e.map o.id = some x ∧ x.fair = true) ∧
          match r with
          | some k => (∃ o ∈ os, o.turn = .full) ∧
              ∃ pre post, i :: is = pre ++ k :: post ∧ ∀ j ∈ pre ++ [k], FastVisited w e.map os j
          | none => ∀ j ∈ i :: is, FastVisited w e.map os j := by
      intro hno
      have hv : ∀ os, FastVisited w e.map os i := fun os id x h1 h2 h3 => absurd ⟨h2, h3⟩ (hno id x h1)
      obtain ⟨e', r, os, h1, h2, h3, h4⟩ := ih hnd' e hk
      refine ⟨e', r, os, h1, h2, h3, ?_⟩
      cases r with
      | none =>
        intro j hj
        rcases List.mem_cons.mp hj with rfl | hj
        · exact hv os
        · exact h4 j hj
      | some k =>
        obtain ⟨a, pre, post, b, c⟩ := h4
        refine ⟨a, i :: pre, post, by rw [b]; rfl, fun j hj => ?_⟩
        rcases List.mem_cons.mp hj with rfl | hj
        · exact hv os
        · exact c j hj
    unfold fast
    cases hm : e.map[i]? with
    | none => exact skip (fun id x hh => by rw [hm] at hh; cases hh)
    | some ix =>
      obtain ⟨id, x⟩ := ix
      dsimp only
      by_cases hc : (!x.fair || !w.has x.st) = true
      · rw [if_pos hc]
        refine skip (fun id' x' hh => ?_)
        rw [hm] at hh
        obtain ⟨rfl, rfl⟩ := Prod.mk.inj (Option.some.inj hh)
        rintro ⟨a, b⟩
        rw [a, b] at hc
        cases hc
      · rw [if_neg hc]
        have hfair : x.fair = true := by
          cases hf : x.fair with
          | true => rfl
          | false => rw [hf] at hc; exact absurd rfl hc
        have hx : imFind e.map id = some x := hk.find (List.mem_of_getElem? hm)
        obtain ⟨e1, o, a, b, _, d⟩ := offer_spec hw hk hx
        have he1 : e1.map = imSet e.map id { x with st := (w.write e.sh x.st e.rem).st } := by
          have := (Prod.mk.inj a).1
          rw [← this]
        have hvi : ∀ os, FastVisited w e.map (o :: os) i := by
          intro os id' x' hh _ _
          rw [hm] at hh
          obtain ⟨rfl, rfl⟩ := Prod.mk.inj (Option.some.inj hh)
          rw [List.map_cons, b]
          exact List.mem_cons_self
        have hother : ∀ os j, j ≠ i → FastVisited w e1.map os j → FastVisited w e.map (o :: os) j := by
          intro os j hj hv id' x' hh h1 h2
          have hne : id' ≠ id := by
            rintro rfl
            exact hj (keys_get hk hh hm)
          rw [List.map_cons]
          refine List.mem_cons_of_mem _ (hv id' x' ?_ h1 h2)
          rw [he1]
          exact imSet_get hh hne
        have hfairs : ∀ os : List Offer, (∀ p ∈ os, ∃ x, imFind e1.map p.id = some x ∧ x.fair = true) →
            ∀ p ∈ o :: os, ∃ x, imFind e.map p.id = some x ∧ x.fair = true := by
          intro os hos p hp
          rcases List.mem_cons.mp hp with rfl | hp
          · rw [b]; exact ⟨x, hx, hfair⟩
          · obtain ⟨y, hy, hyf⟩ := hos p hp
            obtain ⟨st, hst⟩ := sets_find d.sets.symm p.id hy
            exact ⟨_, hst, hyf⟩
        have cont : ∃ e' r os, fast w e1 is = (e', r) ∧ Did w e e' os ∧
            (∀ o ∈ os, ∃ x, imFind e.map o.id = some x ∧ x.fair = true) ∧
            match r with
            | some k => (∃ o ∈ os, o.turn = .full) ∧
                ∃ pre post, i :: is = pre ++ k :: post ∧ ∀ j ∈ pre ++ [k], FastVisited w e.map os j
            | none => ∀ j ∈ i :: is, FastVisited w e.map os j := by
          obtain ⟨e', r, os, h1, h2, h3, h4⟩ := ih hnd' e1 (sets_Keys d.sets hk)
          refine ⟨e', r, o :: os, h1, d.append h2, hfairs os h3, ?_⟩
          cases r with
          | none =>
            intro j hj
            rcases List.mem_cons.mp hj with rfl | hj
            · exact hvi os
            · exact hother os j (fun hh => hni (hh ▸ hj)) (h4 j hj)
          | some k =>
            obtain ⟨⟨o', ho', hot'⟩, pre, post, b1, c1⟩ := h4
            refine ⟨⟨o', List.mem_cons_of_mem _ ho', hot'⟩, i :: pre, post, by rw [b1]; rfl, fun j hj => ?_⟩
            rcases List.mem_cons.mp hj with rfl | hj
            · exact hvi os
            · refine hother os j (fun hh => hni ?_) (c1 j hj)
              rw [b1, ← hh]
              rcases List.mem_append.mp hj with hj | hj
              · exact List.mem_append_left _ hj
              · rw [List.mem_singleton.mp hj]; exact List.mem_append_right _ List.mem_cons_self
        rw [a]
        cases ht : o.turn with
        | full =>
          dsimp only
          refine ⟨_, some i, [o], rfl, d, hfairs [] (fun _ h => by cases h), ⟨o, List.mem_cons_self, ht⟩, [], is, rfl,
            fun j hj => ?_⟩
          rw [List.mem_singleton.mp hj]
          exact hvi []
        | wrote => exact cont
        | nothing => exact cont

/-! ### Unfair streams -/

theorem unfair_spec {w : Writer σ γ} (hw : WriterOk w) (ids : List Nat) (hnd : ids.Nodup) (e : Env σ γ)
    (hk : Keys e.map) :
    ∃ os, Did w e (unfair w e ids) os ∧ (os.map (·.id)).Sublist ids ∧
      (∀ o ∈ os, ∃ x, imFind e.map o.id = some x ∧ x.fair = false) ∧
      ((∃ o ∈ os, o.turn = .full) ∨ ∀ id ∈ ids, ∀ x, imFind e.map id = some x → x.fair = false → w.has x.st = true →
        id ∈ os.map (·.id)) ∧
      (∀ id x, imFind e.map id = some x → x.fair = true → imFind (unfair w e ids).map id = some x) := by
  induction ids generalizing e with
  | nil =>
    exact ⟨[], Did.nil e, List.Sublist.slnil, (fun _ h => by cases h), Or.inr (fun _ h => by cases h),
      fun _ _ h _ => h⟩
  | cons i ids ih =>
    have hni := (List.nodup_cons.mp hnd).1
    have hnd' := (List.nodup_cons.mp hnd).2
    unfold unfair
    have skip : (∀ x, imFind e.map i = some x → ¬ (x.fair = false ∧ w.has x.st = true)) →
      ∃ os, Did w e (unfair w e ids) os ∧ (os.map (·.id)).Sublist (i :: ids) ∧
        (∀ o ∈ os, ∃ x, imFind e.map o.id = some x ∧ x.fair = false) ∧
        ((∃ o ∈ os, o.turn = .full) ∨ ∀ id ∈ i :: ids, ∀ x, imFind e.map id = some x → x.fair = false →
          w.has x.st = true → id ∈ os.map (·.id)) ∧
        (∀ id x, imFind e.map id = some x → x.fair = true → imFind (unfair w e ids).map id = some x) := by
      intro hno
      obtain ⟨os, h1, h2, h3, h4, h5⟩ := ih hnd' e hk
      refine ⟨os, h1, h2.cons i, h3, ?_, h5⟩
      rcases h4 with h4 | h4
      · exact Or.inl h4
      · refine Or.inr (fun id hid x hx hf hh => ?_)
        rcases List.mem_cons.mp hid with rfl | hid
        · exact absurd ⟨hf, hh⟩ (hno x hx)
        · exact h4 id hid x hx hf hh
    cases hx : imFind e.map i with
    | none => exact skip (fun x hh => by rw [hx] at hh; cases hh)
    | some x =>
      dsimp only
      by_cases hc : (x.fair || !w.has x.st) = true
      · rw [if_pos hc]
        refine skip (fun x' hh => ?_)
        rw [hx] at hh
        obtain rfl := Option.some.inj hh
        rintro ⟨a, b⟩
        rw [a, b] at hc
        cases hc
      · rw [if_neg hc]
        have hfair : x.fair = false := by
          cases hf : x.fair with
          | false => rfl
          | true => rw [hf] at hc; exact absurd rfl hc
        obtain ⟨e1, o, a, b, _, d⟩ := offer_spec hw hk hx
        have he1 : e1.map = imSet e.map i { x with st := (w.write e.sh x.st e.rem).st } := by
          have := (Prod.mk.inj a).1
          rw [← this]
        have hother : ∀ id y, id ≠ i → imFind e.map id = some y → imFind e1.map id = some y := by
          intro id y hne hy
          rw [he1, imFind_imSet, if_neg hne, hy]
        have hfo : ∀ id y, imFind e.map id = some y → y.fair = true → imFind e1.map id = some y := by
          intro id y hy hyf
          refine hother id y ?_ hy
          rintro rfl
          rw [hx] at hy
          obtain rfl := Option.some.inj hy
          rw [hfair] at hyf
          cases hyf
        have ho1 : ∃ x, imFind e.map o.id = some x ∧ x.fair = false := by rw [b]; exact ⟨x, hx, hfair⟩
        have cont : ∃ os, Did w e (unfair w e1 ids) os ∧ (os.map (·.id)).Sublist (i :: ids) ∧
          (∀ o ∈ os, ∃ x, imFind e.map o.id = some x ∧ x.fair = false) ∧
          ((∃ o ∈ os, o.turn = .full) ∨ ∀ id ∈ i :: ids, ∀ x, imFind e.map id = some x → x.fair = false →
            w.has x.st = true → id ∈ os.map (·.id)) ∧
          (∀ id x, imFind e.map id = some x → x.fair = true → imFind (unfair w e1 ids).map id = some x) := by
          obtain ⟨os, h1, h2, h3, h4, h5⟩ := ih hnd' e1 (sets_Keys d.sets hk)
          refine ⟨o :: os, d.append h1, ?_, ?_, ?_, fun id y hy hyf => h5 id y (hfo id y hy hyf) hyf⟩
          · rw [List.map_cons, b]
            exact h2.cons_cons i
          · intro p hp
            rcases List.mem_cons.mp hp with rfl | hp
            · exact ho1
            · obtain ⟨y, hy, hyf⟩ := h3 p hp
              obtain ⟨st, hst⟩ := sets_find d.sets.symm p.id hy
              exact ⟨_, hst, hyf⟩
          · rcases h4 with ⟨o', ho', hot'⟩ | h4
            · exact Or.inl ⟨o', List.mem_cons_of_mem _ ho', hot'⟩
            · refine Or.inr (fun id hid y hy hf hh => ?_)
              rw [List.map_cons, b]
              rcases List.mem_cons.mp hid with rfl | hid
              · exact List.mem_cons_self
              · refine List.mem_cons_of_mem _ (h4 id hid y (hother id y ?_ hy) hf hh)
                intro hh
                exact hni (hh ▸ hid)
        rw [a]
        cases ht : o.turn with
        | full =>
          dsimp only
          refine ⟨[o], d, ?_, ?_, Or.inl ⟨o, List.mem_cons_self, ht⟩, hfo⟩
          · rw [List.map_cons, b]
            exact (List.nil_sublist ids).cons_cons i
          · intro p hp
            rw [List.mem_singleton.mp hp]
            exact ho1
        | wrote => exact cont
        | nothing => exact cont

end Neqo.Sched
