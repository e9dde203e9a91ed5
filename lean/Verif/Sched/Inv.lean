import Verif.Sched.Lemmas

namespace Neqo.Sched

variable {σ γ : Type}

/-- The queues of a group, which are empty if there is no such group. -/
def queuesOf (gs : List (Nat × Queues)) (gid : Nat) : Queues := (imFind gs gid).getD {}

/-- The stream is queued in a group with an order. -/
def queuedIn (gs : List (Nat × Queues)) (gid : Nat) (o : Option Nat) (id : Nat) : Prop :=
  (queuesOf gs gid).mem o id

/-- The groups are well-formed, but may be empty. -/
structure GW (gs : List (Nat × Queues)) : Prop where
  keys : Keys gs
  q : ∀ gid q, imFind gs gid = some q → QOk q

theorem GW.of {gs : List (Nat × Queues)} (h : GW gs) (gid : Nat) : QOk (queuesOf gs gid) := by
  unfold queuesOf
  cases hf : imFind gs gid with
  | none => exact QOk.nil
  | some q => exact h.q gid q hf

theorem queuesOf_imInsert (gs : List (Nat × Queues)) (gid g : Nat) (q : Queues) :
    queuesOf (imInsert gs gid q) g = if g = gid then q else queuesOf gs g := by
  unfold queuesOf
  rw [imFind_imInsert]
  by_cases h : g = gid
  · rw [if_pos h, if_pos h]; rfl
  · rw [if_neg h, if_neg h]

theorem queuesOf_imSet (gs : List (Nat × Queues)) (gid g : Nat) (q q0 : Queues) (h0 : imFind gs gid = some q0) :
    queuesOf (imSet gs gid q) g = if g = gid then q else queuesOf gs g := by
  unfold queuesOf
  rw [imFind_imSet, h0]
  by_cases h : g = gid
  · rw [if_pos h, if_pos h]; rfl
  · rw [if_neg h, if_neg h]

theorem GW.imInsert {gs : List (Nat × Queues)} (h : GW gs) (gid : Nat) {q : Queues} (hq : QOk q) :
    GW (imInsert gs gid q) := by
  refine ⟨h.keys.imInsert gid q, fun g q' hf => ?_⟩
  rw [imFind_imInsert] at hf
  by_cases hg : g = gid
  · rw [if_pos hg] at hf; obtain rfl := Option.some.inj hf; exact hq
  · rw [if_neg hg] at hf; exact h.q g q' hf

theorem GW.imSet {gs : List (Nat × Queues)} (h : GW gs) (gid : Nat) {q : Queues} (hq : QOk q) :
    GW (imSet gs gid q) := by
  refine ⟨h.keys.imSet gid q, fun g q' hf => ?_⟩
  rw [imFind_imSet] at hf
  by_cases hg : g = gid
  · rw [if_pos hg] at hf
    split at hf
    · obtain rfl := Option.some.inj hf; exact hq
    · cases hf
  · rw [if_neg hg] at hf; exact h.q g q' hf

theorem GW.filter {gs : List (Nat × Queues)} (h : GW gs) (p : Nat × Queues → Bool) : GW (gs.filter p) := by
  refine ⟨h.keys.filter p, fun g q' hf => ?_⟩
  rw [imFind_filter h.keys] at hf
  exact h.q g q' (Option.filter_eq_some_iff.mp hf).1

/-- No group is empty. -/
def NonEmpty (gs : List (Nat × Queues)) : Prop := ∀ gid q, imFind gs gid = some q → q.isEmpty = false

/-- A stream joins a bucket. -/
theorem join_ok {gs : List (Nat × Queues)} (h : GW gs) {gid id : Nat} {o : Option Nat} {g : Og}
    (ha : Asc g.vec) (hm : ∀ x, x ∈ g.vec ↔ x = id ∨ x ∈ ((queuesOf gs gid).bucket o).vec) :
    GW (imInsert gs gid ((queuesOf gs gid).setBucket g o)) ∧
    (∀ g' o' x, queuedIn (imInsert gs gid ((queuesOf gs gid).setBucket g o)) g' o' x ↔
      queuedIn gs g' o' x ∨ (g' = gid ∧ o' = o ∧ x = id)) := by
  have hne : g.vec ≠ [] := by
    intro hn
    have := (hm id).mpr (Or.inl rfl)
    rw [hn] at this
    cases this
  refine ⟨h.imInsert gid ((h.of gid).setBucket ha hne o), fun g' o' x => ?_⟩
  unfold queuedIn
  rw [queuesOf_imInsert]
  by_cases hg : g' = gid
  · rw [if_pos hg, hg]
    unfold Queues.mem
    rw [Queues.bucket_setBucket (h.of gid)]
    by_cases ho : o' = o
    · rw [if_pos ho, ho, hm]
      constructor
      · rintro (hx | hx)
        · exact Or.inr ⟨rfl, rfl, hx⟩
        · exact Or.inl hx
      · rintro (hx | ⟨_, _, hx⟩)
        · exact Or.inr hx
        · exact Or.inl hx
    · rw [if_neg ho]
      constructor
      · exact Or.inl
      · rintro (hx | ⟨_, hx, _⟩)
        · exact hx
        · exact absurd hx ho
  · rw [if_neg hg]
    constructor
    · exact Or.inl
    · rintro (hx | ⟨hx, _⟩)
      · exact hx
      · exact absurd hx hg

theorem queued_nonEmpty {gs : List (Nat × Queues)} (h : GW gs) {gid id : Nat} {o : Option Nat}
    (hq : queuedIn gs gid o id) : (queuesOf gs gid).isEmpty = false := by
  cases he : (queuesOf gs gid).isEmpty with
  | false => rfl
  | true => exact absurd hq ((Queues.isEmpty_iff (h.of gid)).mp he o id)

theorem join_nonEmpty {gs : List (Nat × Queues)} {gid : Nat} {q : Queues} (hq : q.isEmpty = false)
    (hn : ∀ g q', imFind gs g = some q' → g ≠ gid → q'.isEmpty = false) : NonEmpty (imInsert gs gid q) := by
  intro g q' hf
  rw [imFind_imInsert] at hf
  by_cases hg : g = gid
  · rw [if_pos hg] at hf
    obtain rfl := Option.some.inj hf
    exact hq
  · rw [if_neg hg] at hf
    exact hn g q' hf hg

/-- The scheduler's invariant: the queues hold exactly the fair streams, each where its group and
order say. -/
structure SOk (s : Sched σ) : Prop where
  keys : Keys s.map
  gw : GW s.groups
  ne : NonEmpty s.groups
  mem : ∀ gid o id, queuedIn s.groups gid o id ↔
    ∃ x, imFind s.map id = some x ∧ x.fair = true ∧ x.group.getD nullGroup = gid ∧ x.order = o
  unf : ∀ id x, imFind s.map id = some x → x.fair = false → x.group = none
  nn : ∀ id x, imFind s.map id = some x → x.group ≠ some nullGroup

theorem SOk.nil : SOk ({} : Sched σ) := by
  refine ⟨List.nodup_nil, ⟨List.nodup_nil, fun _ _ h => by cases h⟩, (fun _ _ h => by cases h), ?_,
    (fun _ _ h => by cases h), (fun _ _ h => by cases h)⟩
  intro gid o id
  constructor
  · intro h; exact absurd h (Queues.not_mem_nil o id)
  · rintro ⟨x, h, _⟩; cases h

/-- What `removeFromGroup` does to a queued stream. -/
theorem removeFromGroup_ok {s s' : Sched σ} {gid id : Nat} {o : Option Nat} (h : GW s.groups)
    (hne : NonEmpty s.groups) (hq : queuedIn s.groups gid o id) (hr : s.removeFromGroup gid id o = .ok s') :
    s'.map = s.map ∧ s'.hasEnded = s.hasEnded ∧ GW s'.groups ∧ NonEmpty s'.groups ∧
    ∀ g' o' x, queuedIn s'.groups g' o' x ↔ queuedIn s.groups g' o' x ∧ ¬ (g' = gid ∧ o' = o ∧ x = id) := by
  unfold Sched.removeFromGroup at hr
  cases hf : imFind s.groups gid with
  | none =>
    unfold queuedIn queuesOf at hq
    rw [hf] at hq
    exact absurd hq (Queues.not_mem_nil o id)
  | some q =>
    have hqo : queuesOf s.groups gid = q := by unfold queuesOf; rw [hf]; rfl
    unfold queuedIn at hq
    rw [hqo] at hq
    rw [hf] at hr
    dsimp only at hr
    cases hrs : q.removeStream id o with
    | error e => rw [hrs] at hr; cases hr
    | ok q' =>
      rw [hrs] at hr
      dsimp only at hr
      obtain ⟨h1, h2⟩ := Queues.removeStream_ok (h.q gid q hf) hrs hq
      by_cases he : q'.isEmpty = true
      · rw [if_pos he] at hr
        obtain rfl := Except.ok.inj hr
        have hnone := (Queues.isEmpty_iff h1).mp he
        refine ⟨rfl, rfl, h.filter _, ?_, fun g' o' x => ?_⟩
        · intro g q0 hf0
          have hf0 : imFind (imErase s.groups gid) g = some q0 := hf0
          rw [imFind_imErase h.keys] at hf0
          split at hf0
          · cases hf0
          · exact hne g q0 hf0
        · show queuedIn (imErase s.groups gid) g' o' x ↔ _
          unfold queuedIn queuesOf
          rw [imFind_imErase h.keys]
          by_cases hg : g' = gid
          · rw [if_pos hg, hg, hf]
            constructor
            · intro hx; exact absurd hx (Queues.not_mem_nil o' x)
            · rintro ⟨hx, hn⟩
              exact absurd ((h2 o' x).mpr ⟨hx, fun hh => hn ⟨rfl, hh⟩⟩) (hnone o' x)
          · rw [if_neg hg]
            constructor
            · exact fun hx => ⟨hx, fun hh => hg hh.1⟩
            · exact fun hx => hx.1
      · rw [if_neg he] at hr
        obtain rfl := Except.ok.inj hr
        refine ⟨rfl, rfl, h.imSet gid h1, ?_, fun g' o' x => ?_⟩
        · intro g q0 hf0
          have hf0 : imFind (imSet s.groups gid q') g = some q0 := hf0
          rw [imFind_imSet, hf] at hf0
          by_cases hg : g = gid
          · rw [if_pos hg] at hf0
            obtain rfl := Option.some.inj hf0
            cases hh : q'.isEmpty with
            | false => rfl
            | true => exact absurd hh he
          · rw [if_neg hg] at hf0
            exact hne g q0 hf0
        · show queuedIn (imSet s.groups gid q') g' o' x ↔ _
          unfold queuedIn
          rw [queuesOf_imSet _ _ _ _ _ hf]
          by_cases hg : g' = gid
          · rw [if_pos hg, hg, h2, hqo]
            constructor
            · exact fun hx => ⟨hx.1, fun hh => hx.2 hh.2⟩
            · exact fun hx => ⟨hx.1, fun hh => hx.2 ⟨rfl, hh⟩⟩
          · rw [if_neg hg]
            constructor
            · exact fun hx => ⟨hx, fun hh => hg hh.1⟩
            · exact fun hx => hx.1

theorem removeFromGroup_of {s : Sched σ} {gid id : Nat} {o : Option Nat}
    (hq : queuedIn s.groups gid o id) : ∃ s', s.removeFromGroup gid id o = .ok s' := by
  unfold Sched.removeFromGroup
  cases hf : imFind s.groups gid with
  | none => exact ⟨_, rfl⟩
  | some q =>
    dsimp only
    unfold queuedIn queuesOf at hq
    rw [hf] at hq
    obtain ⟨q', hq'⟩ := Queues.removeStream_of (show q.mem o id from hq)
    rw [hq']
    dsimp only
    by_cases he : q'.isEmpty = true
    · rw [if_pos he]; exact ⟨_, rfl⟩
    · rw [if_neg he]; exact ⟨_, rfl⟩

/-- What `insertIntoGroup` does. -/
theorem insertIntoGroup_ok {s s' : Sched σ} {gid id : Nat} {o : Option Nat} (h : GW s.groups)
    (hne : ∀ g q', imFind s.groups g = some q' → g ≠ gid → q'.isEmpty = false)
    (hr : s.insertIntoGroup gid id o = .ok s') :
    s'.map = s.map ∧ s'.hasEnded = s.hasEnded ∧ GW s'.groups ∧ NonEmpty s'.groups ∧
    ∀ g' o' x, queuedIn s'.groups g' o' x ↔ queuedIn s.groups g' o' x ∨ (g' = gid ∧ o' = o ∧ x = id) := by
  unfold Sched.insertIntoGroup at hr
  dsimp only at hr
  cases hi : ((queuesOf s.groups gid).bucket o).insert id with
  | error e => rw [show (imFind s.groups gid).getD {} = queuesOf s.groups gid from rfl, hi] at hr; cases hr
  | ok g =>
    rw [show (imFind s.groups gid).getD {} = queuesOf s.groups gid from rfl, hi] at hr
    obtain rfl := Except.ok.inj hr
    obtain ⟨h1, h2, _⟩ := Og.insert_ok ((h.of gid).bucket o) hi
    obtain ⟨h3, h4⟩ := join_ok h h1 h2
    refine ⟨rfl, rfl, h3, join_nonEmpty ?_ hne, h4⟩
    have := queued_nonEmpty h3 ((h4 gid o id).mpr (Or.inr ⟨rfl, rfl, rfl⟩))
    rw [queuesOf_imInsert, if_pos rfl] at this
    exact this

theorem insertIntoGroup_of {s : Sched σ} {gid id : Nat} {o : Option Nat}
    (hq : ¬ queuedIn s.groups gid o id) : ∃ s', s.insertIntoGroup gid id o = .ok s' := by
  unfold Sched.insertIntoGroup
  dsimp only
  obtain ⟨g, hg⟩ := Og.insert_of (g := (queuesOf s.groups gid).bucket o) (id := id) hq
  rw [show (imFind s.groups gid).getD {} = queuesOf s.groups gid from rfl, hg]
  exact ⟨_, rfl⟩

/-- What `addFair` does. -/
theorem addFair_ok {s s' : Sched σ} {id : Nat} {o : Option Nat} (h : GW s.groups) (hne : NonEmpty s.groups)
    (hr : s.addFair id o = .ok s') :
    s'.map = s.map ∧ s'.hasEnded = s.hasEnded ∧ GW s'.groups ∧ NonEmpty s'.groups ∧
    ∀ g' o' x, queuedIn s'.groups g' o' x ↔ queuedIn s.groups g' o' x ∨ (g' = nullGroup ∧ o' = o ∧ x = id) := by
  unfold Sched.addFair at hr
  dsimp only at hr
  cases hi : ((queuesOf s.groups nullGroup).bucket o).add id with
  | error e => rw [show (imFind s.groups nullGroup).getD {} = queuesOf s.groups nullGroup from rfl, hi] at hr; cases hr
  | ok g =>
    rw [show (imFind s.groups nullGroup).getD {} = queuesOf s.groups nullGroup from rfl, hi] at hr
    obtain rfl := Except.ok.inj hr
    obtain ⟨h1, h2⟩ := Og.add_ok ((h.of nullGroup).bucket o) hi
    obtain ⟨h3, h4⟩ := join_ok h h1 h2
    refine ⟨rfl, rfl, h3, join_nonEmpty ?_ (fun g q' hf _ => hne g q' hf), h4⟩
    have := queued_nonEmpty h3 ((h4 nullGroup o id).mpr (Or.inr ⟨rfl, rfl, rfl⟩))
    rw [queuesOf_imInsert, if_pos rfl] at this
    exact this

theorem addFair_of {s : Sched σ} {id : Nat} {o : Option Nat}
    (hq : ¬ queuedIn s.groups nullGroup o id) : ∃ s', s.addFair id o = .ok s' := by
  unfold Sched.addFair
  dsimp only
  obtain ⟨g, hg⟩ := Og.add_of (g := (queuesOf s.groups nullGroup).bucket o) (id := id) hq
  rw [show (imFind s.groups nullGroup).getD {} = queuesOf s.groups nullGroup from rfl, hg]
  exact ⟨_, rfl⟩

/-- A fair stream is queued. -/
theorem SOk.fair {s : Sched σ} (h : SOk s) {id : Nat} {x : Strm σ} (hx : imFind s.map id = some x)
    (hf : x.fair = true) : queuedIn s.groups (x.group.getD nullGroup) x.order id :=
  (h.mem _ _ _).mpr ⟨x, hx, hf, rfl, rfl⟩

/-- An unfair stream is not. -/
theorem SOk.unfair {s : Sched σ} (h : SOk s) {id : Nat} {x : Strm σ} (hx : imFind s.map id = some x)
    (hf : x.fair = false) (g : Nat) (o : Option Nat) : ¬ queuedIn s.groups g o id := by
  intro hq
  obtain ⟨y, hy, hfy, _⟩ := (h.mem _ _ _).mp hq
  rw [hx] at hy
  obtain rfl := Option.some.inj hy
  rw [hf] at hfy
  cases hfy

theorem imSet_imSet {α : Type} (m : List (Nat × α)) (k : Nat) (v v' : α) : imSet (imSet m k v) k v' = imSet m k v' := by
  unfold imSet
  rw [List.map_map]
  apply List.map_congr_left
  intro e _
  show (if (if e.1 = k then (e.1, v) else e).1 = k then ((if e.1 = k then (e.1, v) else e).1, v') else
    (if e.1 = k then (e.1, v) else e)) = _
  by_cases h : e.1 = k
  · simp [h]
  · simp [h]

/-- Change a stream in the map: the condition on the queues is left to show. -/
theorem SOk.change {s s' : Sched σ} (h : SOk s) {id : Nat} {x y : Strm σ} (hx : imFind s.map id = some x)
    (hmap : s'.map = imSet s.map id y) (hgw : GW s'.groups) (hne : NonEmpty s'.groups)
    (hy1 : y.fair = false → y.group = none) (hy2 : y.group ≠ some nullGroup)
    (hq : ∀ g o z, queuedIn s'.groups g o z ↔
      (queuedIn s.groups g o z ∧ z ≠ id) ∨ (z = id ∧ y.fair = true ∧ y.group.getD nullGroup = g ∧ y.order = o)) :
    SOk s' := by
  have hfind : ∀ j, imFind s'.map j = if j = id then some y else imFind s.map j := by
    intro j
    rw [hmap, imFind_imSet, hx]
    rfl
  refine ⟨by rw [hmap]; exact h.keys.imSet id y, hgw, hne, fun g o z => ?_, fun j z hj => ?_, fun j z hj => ?_⟩
  · rw [hq, h.mem, hfind]
    by_cases hz : z = id
    · rw [if_pos hz]
      constructor
      · rintro (⟨_, hn⟩ | ⟨_, h1, h2, h3⟩)
        · exact absurd hz hn
        · exact ⟨y, rfl, h1, h2, h3⟩
      · rintro ⟨y', hy', h1, h2, h3⟩
        obtain rfl := Option.some.inj hy'
        exact Or.inr ⟨hz, h1, h2, h3⟩
    · rw [if_neg hz]
      constructor
      · rintro (⟨hh, _⟩ | ⟨hh, _⟩)
        · exact hh
        · exact absurd hh hz
      · exact fun hh => Or.inl ⟨hh, hz⟩
  · rw [hfind] at hj
    by_cases hji : j = id
    · rw [if_pos hji] at hj
      obtain rfl := Option.some.inj hj
      exact hy1
    · rw [if_neg hji] at hj
      exact h.unf j z hj
  · rw [hfind] at hj
    by_cases hji : j = id
    · rw [if_pos hji] at hj
      obtain rfl := Option.some.inj hj
      exact hy2
    · rw [if_neg hji] at hj
      exact h.nn j z hj

/-- Where the stream is queued. -/
theorem SOk.at {s : Sched σ} (h : SOk s) {id : Nat} {x : Strm σ} (hx : imFind s.map id = some x)
    (g : Nat) (o : Option Nat) :
    queuedIn s.groups g o id ↔ x.fair = true ∧ x.group.getD nullGroup = g ∧ x.order = o := by
  rw [h.mem]
  constructor
  · rintro ⟨y, hy, hh⟩
    rw [hx] at hy
    obtain rfl := Option.some.inj hy
    exact hh
  · exact fun hh => ⟨x, hx, hh⟩

/-- The queues after a stream left. -/
theorem SOk.left {s : Sched σ} (h : SOk s) {id : Nat} {x : Strm σ} (hx : imFind s.map id = some x)
    (g' : Nat) (o' : Option Nat) (z : Nat) :
    (queuedIn s.groups g' o' z ∧ ¬ (g' = x.group.getD nullGroup ∧ o' = x.order ∧ z = id)) ↔
      queuedIn s.groups g' o' z ∧ z ≠ id := by
  constructor
  · rintro ⟨h1, h2⟩
    refine ⟨h1, fun hz => h2 ?_⟩
    rw [hz, h.at hx] at h1
    exact ⟨h1.2.1.symm, h1.2.2.symm, hz⟩
  · rintro ⟨h1, h2⟩
    exact ⟨h1, fun hh => h2 hh.2.2⟩

theorem home_fair (g : Option Nat) : home true g = some (g.getD nullGroup) := by cases g <;> rfl

theorem home_unfair : home false none = none := rfl

/-- `set_sendgroup` succeeds or refuses. -/
theorem setSendGroup_spec {s : Sched σ} (h : SOk s) (id : Nat) (group : Option Nat) :
    (∃ s', s.setSendGroup id group = .ok s' ∧ SOk s' ∧ ∃ x, imFind s.map id = some x ∧
        s'.map = imSet s.map id { x with group } ∧ s'.hasEnded = s.hasEnded ∧ group ≠ some nullGroup ∧
        (group.isSome = true → x.fair = true)) ∨
    (s.setSendGroup id group = .error .invalidStreamId ∧ imFind s.map id = none) ∨
    (s.setSendGroup id group = .error .invalidInput ∧ (group = some nullGroup ∨
      ∃ x, imFind s.map id = some x ∧ x.fair = false ∧ group.isSome = true)) := by
  unfold Sched.setSendGroup
  cases hx : imFind s.map id with
  | none => exact Or.inr (Or.inl ⟨rfl, rfl⟩)
  | some x =>
    dsimp only
    by_cases h1 : group = some nullGroup
    · rw [if_pos h1]; exact Or.inr (Or.inr ⟨rfl, Or.inl h1⟩)
    rw [if_neg h1]
    by_cases h2 : x.group = group
    · rw [if_pos h2]
      have hsame : imSet s.map id { x with group } = s.map := by
        have : ({ x with group } : Strm σ) = x := by cases x; cases h2; rfl
        rw [this]
        unfold imSet
        conv => rhs; rw [← List.map_id s.map]
        apply List.map_congr_left
        intro e he
        show (if e.1 = id then (e.1, x) else e) = e
        by_cases hk : e.1 = id
        · rw [if_pos hk]
          have := h.keys.find (show (e.1, e.2) ∈ s.map from he)
          rw [hk, hx] at this
          rw [Option.some.inj this]
        · rw [if_neg hk]
      refine Or.inl ⟨s, rfl, h, x, rfl, hsame.symm, rfl, h1, fun hs => ?_⟩
      cases hf : x.fair with
      | true => rfl
      | false => rw [← h2, h.unf id x hx hf] at hs; cases hs
    rw [if_neg h2]
    by_cases h3 : (group.isSome && !x.fair) = true
    · rw [if_pos h3]
      rw [Bool.and_eq_true] at h3
      refine Or.inr (Or.inr ⟨rfl, Or.inr ⟨x, rfl, ?_, h3.1⟩⟩)
      simpa using h3.2
    rw [if_neg h3]
    refine Or.inl ?_
    by_cases hf : x.fair = false
    · have hg : x.group = none := h.unf id x hx hf
      have : group = none := by
        cases group with
        | none => rfl
        | some g => exact absurd (by rw [hf]; rfl) h3
      exact absurd (hg.trans this.symm) h2
    · have hf : x.fair = true := by simpa using hf
      have hh : ∀ g, home x.fair g = some (g.getD nullGroup) := by rw [hf]; exact home_fair
      rw [hh, hh]
      have hq := h.fair hx hf
      obtain ⟨s1, hs1⟩ := removeFromGroup_of hq
      obtain ⟨m1, e1, g1, n1, q1⟩ := removeFromGroup_ok h.gw h.ne hq hs1
      unfold Sched.leave
      dsimp only
      rw [hs1]
      unfold Sched.enter
      dsimp only
      have hnq : ¬ queuedIn s1.groups (group.getD nullGroup) x.order id := by
        rw [q1, h.left hx]
        exact fun hh => hh.2 rfl
      obtain ⟨s2, hs2⟩ := insertIntoGroup_of
        (s := { s1 with map := imSet s1.map id { x with group } }) hnq
      obtain ⟨m2, e2, g2, n2, q2⟩ := insertIntoGroup_ok (s := { s1 with map := imSet s1.map id { x with group } })
        g1 (fun g q' hh _ => n1 g q' hh) hs2
      rw [hs2]
      have hm2 : s2.map = imSet s.map id { x with group } := by rw [m2]; dsimp only; rw [m1]
      refine ⟨s2, rfl, ?_, x, rfl, hm2, by rw [e2]; exact e1, h1, fun _ => hf⟩
      refine h.change hx hm2 g2 n2 (fun hh => by rw [hf] at hh; cases hh) h1 ?_
      intro g o z
      rw [q2]
      show queuedIn s1.groups g o z ∨ _ ↔ _
      rw [q1, h.left hx]
      show _ ↔ _ ∨ (z = id ∧ x.fair = true ∧ group.getD nullGroup = g ∧ x.order = o)
      constructor
      · rintro (hh | ⟨a, b, c⟩)
        · exact Or.inl hh
        · exact Or.inr ⟨c, hf, a.symm, b.symm⟩
      · rintro (hh | ⟨a, _, b, c⟩)
        · exact Or.inl hh
        · exact Or.inr ⟨b.symm, c.symm, a⟩

/-- `set_fairness` succeeds if the stream exists. -/
theorem setFairness_spec {s : Sched σ} (h : SOk s) (id : Nat) (fair : Bool) :
    (∃ s', s.setFairness id fair = .ok s' ∧ SOk s' ∧ ∃ x, imFind s.map id = some x ∧
        s'.map = imSet s.map id { x with fair, group := if fair then x.group else none } ∧
        s'.hasEnded = s.hasEnded) ∨
    (s.setFairness id fair = .error .invalidStreamId ∧ imFind s.map id = none) := by
  unfold Sched.setFairness
  cases hx : imFind s.map id with
  | none => exact Or.inr ⟨rfl, rfl⟩
  | some x =>
    refine Or.inl ?_
    dsimp only
    have hfix : ∀ y : Strm σ, y = x → y.fair = x.fair := fun y hy => by rw [hy]
    cases hf : x.fair with
    | false =>
      have hg : x.group = none := h.unf id x hx hf
      cases fair with
      | true =>
        rw [if_pos (by rfl), if_pos hg]
        obtain ⟨s2, hs2⟩ := addFair_of (s := { s with map := imSet s.map id { x with fair := true } })
          (o := x.order) (h.unfair hx hf nullGroup x.order)
        obtain ⟨m2, e2, g2, n2, q2⟩ := addFair_ok (s := { s with map := imSet s.map id { x with fair := true } })
          h.gw h.ne hs2
        rw [hs2]
        refine ⟨s2, rfl, ?_, x, rfl, by rw [m2, if_pos rfl], e2⟩
        refine h.change hx m2 g2 n2 (fun hh => by cases hh) (h.nn id x hx) ?_
        intro g o z
        rw [q2]
        show queuedIn s.groups g o z ∨ _ ↔ _ ∨ (z = id ∧ true = true ∧ x.group.getD nullGroup = g ∧ x.order = o)
        rw [hg]
        constructor
        · rintro (hh | ⟨a, b, c⟩)
          · exact Or.inl ⟨hh, fun hz => h.unfair hx hf g o (hz ▸ hh)⟩
          · exact Or.inr ⟨c, rfl, a.symm, b.symm⟩
        · rintro (hh | ⟨a, _, b, c⟩)
          · exact Or.inl hh.1
          · exact Or.inr ⟨b.symm, c.symm, a⟩
      | false =>
        rw [if_neg (by decide), if_neg (by decide)]
        refine ⟨_, rfl, ?_, x, rfl, ?_, rfl⟩
        · refine h.change hx rfl h.gw h.ne (fun _ => hg) (h.nn id x hx) ?_
          intro g o z
          constructor
          · exact fun hh => Or.inl ⟨hh, fun hz => h.unfair hx hf g o (hz ▸ hh)⟩
          · rintro (hh | ⟨_, a, _⟩)
            · exact hh.1
            · cases a
        · dsimp only; rw [hg]; rfl
    | true =>
      cases fair with
      | true =>
        rw [if_neg (by decide), if_neg (by decide)]
        refine ⟨_, rfl, ?_, x, rfl, by rw [if_pos rfl], rfl⟩
        refine h.change hx rfl h.gw h.ne (fun hh => by cases hh) (h.nn id x hx) ?_
        intro g o z
        show queuedIn s.groups g o z ↔ _ ∨ (z = id ∧ true = true ∧ x.group.getD nullGroup = g ∧ x.order = o)
        constructor
        · intro hh
          by_cases hz : z = id
          · rw [hz, h.at hx, hf] at hh
            exact Or.inr ⟨hz, hh⟩
          · exact Or.inl ⟨hh, hz⟩
        · rintro (hh | ⟨a, b⟩)
          · exact hh.1
          · rw [a, h.at hx, hf]; exact b
      | false =>
        rw [if_neg (by decide), if_pos (by decide)]
        have hq := h.fair hx hf
        obtain ⟨s1, hs1⟩ := removeFromGroup_of (s := { s with map := imSet s.map id { x with fair := false } }) hq
        obtain ⟨m1, e1, g1, n1, q1⟩ := removeFromGroup_ok
          (s := { s with map := imSet s.map id { x with fair := false } }) h.gw h.ne hq hs1
        rw [hs1]
        have hm : imSet s1.map id { x with fair := false, group := none } =
            imSet s.map id { x with fair := false, group := none } := by rw [m1]; exact imSet_imSet _ _ _ _
        refine ⟨_, rfl, ?_, x, rfl, hm, e1⟩
        refine h.change hx hm g1 n1 (fun _ => rfl) (by intro hh; cases hh) ?_
        intro g o z
        show queuedIn s1.groups g o z ↔ _
        rw [q1]
        show queuedIn s.groups g o z ∧ _ ↔ _
        rw [h.left hx]
        constructor
        · exact Or.inl
        · rintro (hh | ⟨_, a, _⟩)
          · exact hh
          · cases a

/-- `set_sendorder` succeeds if the stream exists. -/
theorem setSendOrder_spec {s : Sched σ} (h : SOk s) (id : Nat) (order : Option Nat) :
    (∃ s', s.setSendOrder id order = .ok s' ∧ SOk s' ∧ ∃ x, imFind s.map id = some x ∧
        s'.map = imSet s.map id { x with fair := true, order } ∧ s'.hasEnded = s.hasEnded) ∨
    (s.setSendOrder id order = .error .invalidStreamId ∧ imFind s.map id = none) := by
  unfold Sched.setSendOrder
  rcases setFairness_spec h id true with ⟨s1, hs1, h1, x, hx, hm1, he1⟩ | ⟨hs1, hn⟩
  · refine Or.inl ?_
    rw [if_pos rfl] at hm1
    have hx1 : imFind s1.map id = some { x with fair := true } := by
      rw [hm1, imFind_imSet, if_pos rfl, hx]; rfl
    rw [hs1]
    dsimp only
    rw [hx1]
    dsimp only
    by_cases ho : x.order = order
    · rw [if_pos ho]
      refine ⟨s1, rfl, h1, x, hx, ?_, he1⟩
      rw [hm1, ← ho]
    · rw [if_neg ho]
      unfold Sched.reorder
      have hq := h1.fair hx1 rfl
      dsimp only at hq ⊢
      cases hg : imFind s1.groups (x.group.getD nullGroup) with
      | none =>
        unfold queuedIn queuesOf at hq
        rw [hg] at hq
        exact absurd hq (Queues.not_mem_nil _ _)
      | some q =>
        dsimp only
        have hqo : queuesOf s1.groups (x.group.getD nullGroup) = q := by unfold queuesOf; rw [hg]; rfl
        have hqm : q.mem x.order id := by unfold queuedIn at hq; rw [hqo] at hq; exact hq
        obtain ⟨q', hq'⟩ := Queues.removeStream_of hqm
        obtain ⟨hk, hkm⟩ := Queues.removeStream_ok (h1.gw.q _ _ hg) hq' hqm
        rw [hq']
        dsimp only
        have hgq : ∀ g o z, queuedIn (imSet s1.groups (x.group.getD nullGroup) q') g o z ↔
            queuedIn s1.groups g o z ∧ ¬ (g = x.group.getD nullGroup ∧ o = x.order ∧ z = id) := by
          intro g o z
          unfold queuedIn
          rw [queuesOf_imSet _ _ _ _ _ hg]
          by_cases hgg : g = x.group.getD nullGroup
          · rw [if_pos hgg, hgg, hkm, hqo]
            constructor
            · exact fun hh => ⟨hh.1, fun hy => hh.2 hy.2⟩
            · exact fun hh => ⟨hh.1, fun hy => hh.2 ⟨rfl, hy⟩⟩
          · rw [if_neg hgg]
            constructor
            · exact fun hh => ⟨hh, fun hy => hgg hy.1⟩
            · exact fun hh => hh.1
        have hleft := h1.left hx1
        dsimp only at hleft
        obtain ⟨s2, hs2⟩ := insertIntoGroup_of
          (s := { s1 with groups := imSet s1.groups (x.group.getD nullGroup) q',
                          map := imSet s1.map id { x with fair := true, order } })
          (gid := x.group.getD nullGroup) (id := id) (o := order)
          (by show ¬ queuedIn (imSet s1.groups (x.group.getD nullGroup) q') _ _ _
              rw [hgq, hleft]
              exact fun hh => hh.2 rfl)
        obtain ⟨m2, e2, g2, n2, q2⟩ := insertIntoGroup_ok
          (s := { s1 with groups := imSet s1.groups (x.group.getD nullGroup) q',
                          map := imSet s1.map id { x with fair := true, order } })
          (h1.gw.imSet _ hk)
          (by intro g q0 hf0 hgn
              have hf0 : imFind (imSet s1.groups (x.group.getD nullGroup) q') g = some q0 := hf0
              rw [imFind_imSet, if_neg hgn] at hf0
              exact h1.ne g q0 hf0) hs2
        refine ⟨s2, hs2, ?_, x, hx, by rw [m2]; dsimp only; rw [hm1, imSet_imSet], by rw [e2]; exact he1⟩
        refine h1.change hx1 (y := { x with fair := true, order }) m2 g2 n2 (fun hh => by cases hh)
          (h.nn id x hx) ?_
        intro g o z
        rw [q2]
        show queuedIn (imSet s1.groups (x.group.getD nullGroup) q') g o z ∨ _ ↔
          _ ∨ (z = id ∧ true = true ∧ x.group.getD nullGroup = g ∧ order = o)
        rw [hgq, hleft]
        constructor
        · rintro (hh | ⟨a, b, c⟩)
          · exact Or.inl hh
          · exact Or.inr ⟨c, rfl, a.symm, b.symm⟩
        · rintro (hh | ⟨a, _, b, c⟩)
          · exact Or.inl hh
          · exact Or.inr ⟨b.symm, c.symm, a⟩
  · rw [hs1]
    exact Or.inr ⟨rfl, hn⟩

/-- A stream is changed, but not what scheduling knows of it. -/
theorem SOk.state {s : Sched σ} (h : SOk s) {id : Nat} {x : Strm σ} (hx : imFind s.map id = some x) (st : σ)
    {s' : Sched σ} (hm : s'.map = imSet s.map id { x with st }) (hg : s'.groups = s.groups) : SOk s' := by
  refine h.change hx hm (by rw [hg]; exact h.gw) (by rw [hg]; exact h.ne) (h.unf id x hx) (h.nn id x hx) ?_
  intro g o z
  rw [hg]
  show _ ↔ _ ∨ (z = id ∧ x.fair = true ∧ x.group.getD nullGroup = g ∧ x.order = o)
  constructor
  · intro hh
    by_cases hz : z = id
    · rw [hz, h.at hx] at hh
      exact Or.inr ⟨hz, hh⟩
    · exact Or.inl ⟨hh, hz⟩
  · rintro (hh | ⟨a, b⟩)
    · exact hh.1
    · rw [a, h.at hx]; exact b

theorem acked_ok (w : Writer σ γ) {s : Sched σ} (h : SOk s) (id : Nat) (f : σ → σ) : SOk (s.acked w id f) := by
  unfold Sched.acked
  cases hx : imFind s.map id with
  | none => exact h
  | some x => exact h.state hx (f x.st) rfl rfl

theorem touch_ok {s : Sched σ} (h : SOk s) (id : Nat) (f : σ → σ) : SOk (s.touch id f) := by
  unfold Sched.touch
  cases hx : imFind s.map id with
  | none => exact h
  | some x => exact h.state hx (f x.st) rfl rfl

theorem insert_ok {s : Sched σ} (h : SOk s) {id : Nat} (st : σ) (hn : imFind s.map id = none) :
    SOk (s.insert id st) := by
  have hfind : ∀ j, imFind (s.insert id st).map j = if j = id then some { st } else imFind s.map j :=
    fun j => imFind_imInsert s.map id j _
  refine ⟨h.keys.imInsert id _, h.gw, h.ne, fun g o z => ?_, fun j z hj => ?_, fun j z hj => ?_⟩
  · show queuedIn s.groups g o z ↔ _
    rw [h.mem, hfind]
    by_cases hz : z = id
    · rw [if_pos hz, hz, hn]
      constructor
      · rintro ⟨x, hx, _⟩; cases hx
      · rintro ⟨x, hx, hf, _⟩
        obtain rfl := Option.some.inj hx
        cases hf
    · rw [if_neg hz]
  · rw [hfind] at hj
    split at hj
    · obtain rfl := Option.some.inj hj
      exact fun _ => rfl
    · exact h.unf j z hj
  · rw [hfind] at hj
    split at hj
    · obtain rfl := Option.some.inj hj
      intro hh; cases hh
    · exact h.nn j z hj

/-- Dropping streams that are queued where they say. -/
theorem dropAll_ok {l : List (Nat × Strm σ)} {gs : List (Nat × Queues)} (h : GW gs) (hk : Keys l)
    (hq : ∀ e ∈ l, e.2.fair = true → queuedIn gs (e.2.group.getD nullGroup) e.2.order e.1) :
    ∃ gs', dropAll gs l = .ok gs' ∧ GW gs' ∧ ∀ g o z, queuedIn gs' g o z ↔ queuedIn gs g o z ∧
      ¬ ∃ x, (z, x) ∈ l ∧ x.fair = true ∧ x.group.getD nullGroup = g ∧ x.order = o := by
  induction l generalizing gs with
  | nil =>
    refine ⟨gs, rfl, h, fun g o z => ?_⟩
    constructor
    · exact fun hh => ⟨hh, fun ⟨x, hx, _⟩ => by cases hx⟩
    · exact fun hh => hh.1
  | cons e l ih =>
    obtain ⟨id, x⟩ := e
    have hk' := List.nodup_cons.mp (show (id :: l.map (·.1)).Nodup from hk)
    have hnot : ∀ y, (id, y) ∉ l := fun y hy => hk'.1 (List.mem_map.mpr ⟨_, hy, rfl⟩)
    unfold dropAll
    cases hf : x.fair with
    | false =>
      obtain ⟨gs', h1, h2, h3⟩ := ih h hk'.2 (fun e he => hq e (List.mem_cons_of_mem _ he))
      rw [if_neg (by decide)]
      refine ⟨gs', h1, h2, fun g o z => ?_⟩
      rw [h3]
      constructor
      · rintro ⟨a, b⟩
        refine ⟨a, fun ⟨y, hy, hfy, hh⟩ => ?_⟩
        rcases List.mem_cons.mp hy with hy | hy
        · obtain ⟨-, rfl⟩ := Prod.mk.inj hy
          rw [hf] at hfy; cases hfy
        · exact b ⟨y, hy, hfy, hh⟩
      · rintro ⟨a, b⟩
        exact ⟨a, fun ⟨y, hy, hh⟩ => b ⟨y, List.mem_cons_of_mem _ hy, hh⟩⟩
    | true =>
      rw [if_pos rfl]
      have hqx := hq (id, x) List.mem_cons_self hf
      dsimp only at hqx
      cases hg : imFind gs (x.group.getD nullGroup) with
      | none =>
        unfold queuedIn queuesOf at hqx
        rw [hg] at hqx
        exact absurd hqx (Queues.not_mem_nil _ _)
      | some q =>
        dsimp only
        have hqo : queuesOf gs (x.group.getD nullGroup) = q := by unfold queuesOf; rw [hg]; rfl
        have hqm : q.mem x.order id := by unfold queuedIn at hqx; rw [hqo] at hqx; exact hqx
        obtain ⟨q', hq'⟩ := Queues.removeStream_of hqm
        obtain ⟨hk1, hkm⟩ := Queues.removeStream_ok (h.q _ _ hg) hq' hqm
        rw [hq']
        dsimp only
        have hgq : ∀ g o z, queuedIn (imSet gs (x.group.getD nullGroup) q') g o z ↔
            queuedIn gs g o z ∧ ¬ (g = x.group.getD nullGroup ∧ o = x.order ∧ z = id) := by
          intro g o z
          unfold queuedIn
          rw [queuesOf_imSet _ _ _ _ _ hg]
          by_cases hgg : g = x.group.getD nullGroup
          · rw [if_pos hgg, hgg, hkm, hqo]
            constructor
            · exact fun hh => ⟨hh.1, fun hy => hh.2 hy.2⟩
            · exact fun hh => ⟨hh.1, fun hy => hh.2 ⟨rfl, hy⟩⟩
          · rw [if_neg hgg]
            constructor
            · exact fun hh => ⟨hh, fun hy => hgg hy.1⟩
            · exact fun hh => hh.1
        obtain ⟨gs', h1, h2, h3⟩ := ih (h.imSet _ hk1) hk'.2 (by
          intro e he hfe
          rw [hgq]
          refine ⟨hq e (List.mem_cons_of_mem _ he) hfe, fun hh => ?_⟩
          exact hnot e.2 (by rw [← hh.2.2]; exact he))
        refine ⟨gs', h1, h2, fun g o z => ?_⟩
        rw [h3, hgq]
        constructor
        · rintro ⟨⟨a, b⟩, c⟩
          refine ⟨a, fun ⟨y, hy, hfy, h4, h5⟩ => ?_⟩
          rcases List.mem_cons.mp hy with hy | hy
          · obtain ⟨rfl, rfl⟩ := Prod.mk.inj hy
            exact b ⟨h4.symm, h5.symm, rfl⟩
          · exact c ⟨y, hy, hfy, h4, h5⟩
        · rintro ⟨a, b⟩
          refine ⟨⟨a, fun ⟨h4, h5, h6⟩ => b ⟨x, ?_, hf, h4.symm, h5.symm⟩⟩, fun ⟨y, hy, hh⟩ =>
            b ⟨y, List.mem_cons_of_mem _ hy, hh⟩⟩
          rw [h6]
          exact List.mem_cons_self

/-- `remove_ended` succeeds, and removes the ended streams. -/
theorem removeEnded_spec (w : Writer σ γ) {s : Sched σ} (h : SOk s) :
    ∃ s' b, s.removeEnded w = .ok (s', b) ∧ SOk s' ∧
      (s.hasEnded = false → s' = s ∧ b = false) ∧
      (s.hasEnded = true → s'.map = s.map.filter (fun e => !w.ended e.2.st) ∧ s'.hasEnded = false ∧
        (b = true ↔ ∃ e ∈ s.map, w.ended e.2.st = true)) := by
  unfold Sched.removeEnded
  cases hE : s.hasEnded with
  | false =>
    rw [if_pos (by rfl)]
    exact ⟨s, false, rfl, h, fun _ => ⟨rfl, rfl⟩, fun hh => by cases hh⟩
  | true =>
    rw [if_neg (by decide)]
    dsimp only
    obtain ⟨gs, h1, h2, h3⟩ := dropAll_ok (l := s.map.filter (fun e => w.ended e.2.st)) h.gw (h.keys.filter _) (by
      intro e he hf
      exact h.fair (h.keys.find (show (e.1, e.2) ∈ s.map from (List.mem_filter.mp he).1)) hf)
    rw [h1]
    dsimp only
    refine ⟨_, _, rfl, ?_, (fun hh => by cases hh), fun _ => ⟨rfl, rfl, ?_⟩⟩
    · have hfind : ∀ j x, imFind (s.map.filter (fun e => !w.ended e.2.st)) j = some x ↔
          imFind s.map j = some x ∧ w.ended x.st = false := by
        intro j x
        rw [imFind_filter h.keys, Option.filter_eq_some_iff]
        simp
      have hqf : ∀ g o z, queuedIn (gs.filter (fun e => !e.2.isEmpty)) g o z ↔ queuedIn gs g o z := by
        intro g o z
        unfold queuedIn queuesOf
        rw [imFind_filter h2.keys]
        cases hf : imFind gs g with
        | none => exact Iff.rfl
        | some q =>
          show ((if (!q.isEmpty) = true then some q else none).getD {}).mem o z ↔ _
          cases he : q.isEmpty with
          | false => exact Iff.rfl
          | true =>
            constructor
            · intro hh; exact absurd hh (Queues.not_mem_nil o z)
            · intro hh
              exact absurd hh ((Queues.isEmpty_iff (h2.q g q hf)).mp he o z)
      refine ⟨h.keys.filter _, h2.filter _, fun g q hf => ?_, fun g o z => ?_, fun j x hx => ?_, fun j x hx => ?_⟩
      · have hf : imFind (gs.filter (fun e => !e.2.isEmpty)) g = some q := hf
        rw [imFind_filter h2.keys, Option.filter_eq_some_iff] at hf
        simpa using hf.2
      · show queuedIn (gs.filter (fun e => !e.2.isEmpty)) g o z ↔ _
        rw [hqf, h3, h.mem]
        constructor
        · rintro ⟨⟨x, hx, hh⟩, hn⟩
          refine ⟨x, (hfind z x).mpr ⟨hx, ?_⟩, hh⟩
          cases hw : w.ended x.st with
          | false => rfl
          | true => exact absurd ⟨x, List.mem_filter.mpr ⟨mem_of_imFind hx, hw⟩, hh⟩ hn
        · rintro ⟨x, hx, hh⟩
          obtain ⟨hx1, hx2⟩ := (hfind z x).mp hx
          refine ⟨⟨x, hx1, hh⟩, fun ⟨y, hy, _⟩ => ?_⟩
          obtain ⟨hy1, hy2⟩ := List.mem_filter.mp hy
          rw [h.keys.find hy1] at hx1
          obtain rfl := Option.some.inj hx1
          rw [hx2] at hy2
          cases hy2
      · exact h.unf j x ((hfind j x).mp hx).1
      · exact h.nn j x ((hfind j x).mp hx).1
    · constructor
      · intro hb
        cases hl : s.map.filter (fun e => w.ended e.2.st) with
        | nil => rw [hl] at hb; cases hb
        | cons e l =>
          have he : e ∈ s.map.filter (fun e => w.ended e.2.st) := by rw [hl]; exact List.mem_cons_self
          exact ⟨e, (List.mem_filter.mp he).1, (List.mem_filter.mp he).2⟩
      · rintro ⟨e, he, hw⟩
        have : e ∈ s.map.filter (fun e => w.ended e.2.st) := List.mem_filter.mpr ⟨he, hw⟩
        cases hl : s.map.filter (fun e => w.ended e.2.st) with
        | nil => rw [hl] at this; cases this
        | cons a l => rfl

end Neqo.Sched
