import Verif.H3Conn.Track2

/-! The order of states, the streams given up at a GOAWAY, and what single steps do to both. -/

namespace Neqo.H3c

/-- The order the states of a connection are gone through. -/
def St.rank : St → Nat
  | .initializing => 0
  | .zeroRtt => 1
  | .connected => 2
  | .goingAway _ => 3
  | .closing _ => 4
  | .closed _ => 5

/-- A state that may follow another: no step back, and the limit of a GOAWAY only sinks. -/
def Forward (a b : St) : Prop :=
  a.rank ≤ b.rank ∧ ∀ g g', a = .goingAway g → b = .goingAway g' → g' ≤ g

theorem Forward.refl (a : St) : Forward a a :=
  ⟨Nat.le_refl _, fun g g' h h' => by rw [h] at h'; cases h'; exact Nat.le_refl _⟩

theorem Forward.of_eq {a b : St} (h : b = a) : Forward a b := h ▸ Forward.refl _

theorem Forward.trans {a b c : St} (h : Forward a b) (k : Forward b c) : Forward a c := by
  refine ⟨Nat.le_trans h.1 k.1, ?_⟩
  intro g g' e e'
  cases b with
  | goingAway x => exact Nat.le_trans (k.2 x g' rfl e') (h.2 g x e rfl)
  | _ =>
    have h1 := h.1; have k1 := k.1
    rw [e] at h1; rw [e'] at k1
    simp only [St.rank] at h1 k1
    omega

theorem Forward.over {a b : St} (ha : a.rank ≤ 4) (h : b.over = true) : Forward a b := by
  refine ⟨?_, ?_⟩
  · cases b with
    | closing r => exact ha
    | closed r => exact Nat.le_succ_of_le ha
    | _ => cases h
  · intro g g' _ e; rw [e] at h; cases h

/-! ### Giving up streams -/

theorem mem_keys {α : Type} {l : List (Nat × α)} {i : Nat} {k : α} (h : get l i = some k) :
    i ∈ l.map (·.1) := by
  induction l with
  | nil => cases h
  | cons p t ih =>
    obtain ⟨a, v⟩ := p
    unfold get at h
    split at h
    · rename_i e; subst e; exact List.mem_cons_self
    · exact List.mem_cons_of_mem _ (ih h)

theorem Cut.noneR {id j : Nat} {c c' : C} (s : Cut id c c') (h : get c.recv j = none) :
    get c'.recv j = none := by
  by_cases hj : j = id
  · subst hj
    rcases s.idR with e | e
    · exact e
    · rw [e]; exact h
  · rcases s.recv j hj with e | ⟨_, e⟩
    · rw [e]; exact h
    · exact e

theorem Cut.noneS {id j : Nat} {c c' : C} (s : Cut id c c') (h : get c.send j = none) :
    get c'.send j = none := by
  by_cases hj : j = id
  · subst hj
    rcases s.idS with e | e
    · exact e
    · rw [e]; exact h
  · rcases s.send j hj with e | ⟨_, e⟩
    · rw [e]; exact h
    · exact e

theorem Cut.keepR {id j : Nat} {c c' : C} (s : Cut id c c') (hj : j ≠ id) {k : RK}
    (h : get c.recv j = some k) (hk : ∀ s, k ≠ .wt s) : get c'.recv j = some k := by
  rcases s.recv j hj with e | ⟨⟨t, e⟩, _⟩
  · rw [e]; exact h
  · rw [h] at e; cases e; exact absurd rfl (hk t)

theorem Cut.keepS {id j : Nat} {c c' : C} (s : Cut id c c') (hj : j ≠ id) {k : SK}
    (h : get c.send j = some k) (hk : ∀ s, k ≠ .wt s) : get c'.send j = some k := by
  rcases s.send j hj with e | ⟨⟨t, e⟩, _⟩
  · rw [e]; exact h
  · rw [h] at e; cases e; exact absurd rfl (hk t)

theorem Frame.mem {c c' : C} (f : Frame c c') {e : Eff} (h : e ∈ c.log) : e ∈ c'.log := by
  obtain ⟨l, hl, _⟩ := f.log
  rw [hl]; exact List.mem_append_left _ h

/-- Stopping the sending halves of some streams: they are gone, other streams are as before except
those of sessions. -/
theorem foldStop_cut {q : Bool} (code : Nat) (l : List Nat) : ∀ {c : C}, Inv q c →
    (∀ i ∈ l, isUni i = false) →
    let c' := l.foldl (fun c id => (handleStop c id code).1) c
    (∀ i ∈ l, get c'.send i = none) ∧
    (∀ j, get c.send j = none → get c'.send j = none) ∧
    (∀ j, get c.recv j = none → get c'.recv j = none) ∧
    (∀ j k, j ∉ l → get c.send j = some k → (∀ s, k ≠ .wt s) → get c'.send j = some k) ∧
    (∀ j k, j ∉ l → get c.recv j = some k → (∀ s, k ≠ .wt s) → get c'.recv j = some k) ∧
    (∀ j, get c.recv j = some .http → get c'.recv j = some .http) ∧
    (∀ j, j ∈ l → get c.send j = some (.http false) → .stopped j code ∈ c'.log) := by
  induction l with
  | nil =>
    intro c h _
    exact ⟨fun i hi => absurd hi (by simp), fun _ h => h, fun _ h => h, fun _ _ _ h _ => h,
      fun _ _ _ h _ => h, fun _ h => h, fun i hi => absurd hi (by simp)⟩
  | cons a t ih =>
    intro c h hl
    obtain ⟨h1, h2, h3, h4⟩ := handleStop_spec h a code
    obtain ⟨i1, i2, i3, i4, i5, i6, i7⟩ := ih h1 (fun i hi => hl i (List.mem_cons_of_mem _ hi))
    have hcrit : sendCritical c a = false := by
      cases e : sendCritical c a with
      | false => rfl
      | true =>
        have := h.own a e
        rw [hl a List.mem_cons_self] at this; cases this
    have hframe := (foldStop_spec code t h1).2
    have hhttp : ∀ j, get c.recv j = some .http → get (handleStop c a code).1.recv j = some .http := by
      intro j hj
      by_cases hja : j = a
      · subst hja
        unfold handleStop
        rw [hcrit]
        show get (closeSend c j (.remote code)).recv j = _
        cases hs : get c.send j with
        | none => unfold closeSend removeSend; rw [hs]; exact hj
        | some k =>
          cases k with
          | http f =>
            unfold closeSend removeSend
            rw [hs]
            show get (stopSend { c with send := del c.send j } j (.http f) (.remote code)).recv j = _
            unfold stopSend
            dsimp only
            split
            · exact hj
            · unfold sendClosed; split <;> exact hj
          | connect f =>
            obtain ⟨r, hr, hx⟩ := h.ext j _ hs rfl
            rw [hj] at hr; cases hr; cases hx
          | session f =>
            obtain ⟨r, hr, hx⟩ := h.ext j _ hs rfl
            rw [hj] at hr; cases hr; cases hx
          | wt s =>
            have := h.wtS j s _ hs hj
            cases this
      · exact h3.keepR hja hj (by intro s e; cases e)
    refine ⟨?_, fun j hj => i2 j (h3.noneS hj), fun j hj => i3 j (h3.noneR hj), ?_, ?_,
      fun j hj => i6 j (hhttp j hj), ?_⟩
    · intro i hi
      rcases List.mem_cons.mp hi with rfl | hi
      · exact i2 _ (h4 hcrit)
      · exact i1 i hi
    · intro j k hj e hk
      exact i4 j k (fun x => hj (List.mem_cons_of_mem _ x))
        (h3.keepS (fun x => hj (by rw [x]; exact List.mem_cons_self)) e hk) hk
    · intro j k hj e hk
      exact i5 j k (fun x => hj (List.mem_cons_of_mem _ x))
        (h3.keepR (fun x => hj (by rw [x]; exact List.mem_cons_self)) e hk) hk
    · intro j hj e
      by_cases hja : j = a
      · subst hja
        refine hframe.mem ?_
        unfold handleStop
        rw [hcrit]
        show _ ∈ (closeSend c j (.remote code)).log
        unfold closeSend removeSend
        rw [e]
        show _ ∈ (stopSend { c with send := del c.send j } j (.http false) (.remote code)).log
        unfold stopSend
        show _ ∈ (sendClosed { c with send := del c.send j } j (.remote code)).log
        unfold sendClosed
        cases c.role <;> exact List.mem_append_right _ List.mem_cons_self
      · rcases List.mem_cons.mp hj with x | hj
        · exact absurd x hja
        · exact i7 j hj (h3.keepS hja e (by intro s e; cases e))

/-- Closing the receiving halves of some streams. -/
theorem foldClose_cut {q : Bool} (code : Nat) (l : List Nat) : ∀ {c : C}, Inv q c →
    let c' := l.foldl (fun c id => (closeRecv c id (.remote code)).1) c
    (∀ i ∈ l, get c'.recv i = none) ∧
    (∀ j, get c.send j = none → get c'.send j = none) ∧
    (∀ j, get c.recv j = none → get c'.recv j = none) ∧
    (∀ j k, j ∉ l → get c.send j = some k → (∀ s, k ≠ .wt s) → get c'.send j = some k) ∧
    (∀ j k, j ∉ l → get c.recv j = some k → (∀ s, k ≠ .wt s) → get c'.recv j = some k) ∧
    (∀ j, j ∈ l → get c.recv j = some .http → .reset j code ∈ c'.log) := by
  induction l with
  | nil =>
    intro c h
    exact ⟨fun i hi => absurd hi (by simp), fun _ h => h, fun _ h => h, fun _ _ _ h _ => h,
      fun _ _ _ h _ => h, fun i hi => absurd hi (by simp)⟩
  | cons a t ih =>
    intro c h
    obtain ⟨h1, h2, h3, h4⟩ := closeRecv_spec h a (.remote code)
    obtain ⟨i1, i2, i3, i4, i5, i6⟩ := ih h1
    have hframe := (foldClose_spec (.remote code) t h1).2
    refine ⟨?_, fun j hj => i2 j (h3.noneS hj), fun j hj => i3 j (h3.noneR hj), ?_, ?_, ?_⟩
    · intro i hi
      rcases List.mem_cons.mp hi with rfl | hi
      · exact i3 _ h4
      · exact i1 i hi
    · intro j k hj e hk
      exact i4 j k (fun x => hj (List.mem_cons_of_mem _ x))
        (h3.keepS (fun x => hj (by rw [x]; exact List.mem_cons_self)) e hk) hk
    · intro j k hj e hk
      exact i5 j k (fun x => hj (List.mem_cons_of_mem _ x))
        (h3.keepR (fun x => hj (by rw [x]; exact List.mem_cons_self)) e hk) hk
    · intro j hj e
      by_cases hja : j = a
      · subst hja
        refine hframe.mem ?_
        unfold closeRecv removeRecv
        rw [e]
        show _ ∈ (recvClosed { c with recv := del c.recv j } j (.remote code)).log
        unfold recvClosed
        cases c.role <;> exact List.mem_append_right _ List.mem_cons_self
      · rcases List.mem_cons.mp hj with x | hj
        · exact absurd x hja
        · exact i6 j hj (h3.keepR hja e (by intro s e; cases e))

/-- What giving up the streams at and above a limit does. -/
structure Given (g : Nat) (c c' : C) : Prop where
  gone : ∀ i, isUni i = false → g ≤ i → get c'.recv i = none ∧ get c'.send i = none
  keepR : ∀ i k, (isUni i = true ∨ i < g) → get c.recv i = some k → (∀ s, k ≠ .wt s) →
    get c'.recv i = some k
  keepS : ∀ i k, (isUni i = true ∨ i < g) → get c.send i = some k → (∀ s, k ≠ .wt s) →
    get c'.send i = some k
  toldR : ∀ i, isUni i = false → g ≤ i → get c.recv i = some .http → .reset i rejected ∈ c'.log
  toldS : ∀ i, isUni i = false → g ≤ i → get c.send i = some (.http false) →
    .stopped i rejected ∈ c'.log

theorem idGte_iff {g : Nat} (hg : isUni g = false) (i : Nat) :
    idGte g i = true ↔ isUni i = false ∧ g ≤ i := by
  unfold idGte
  rw [hg]
  simp [And.comm]

theorem cutAbove_given {q : Bool} {c : C} (h : Inv q c) {g : Nat} (hg : isUni g = false) :
    Given g c (cutAbove c g) := by
  unfold cutAbove
  dsimp only
  have hl1 : ∀ i ∈ (c.send.map (·.1)).filter (idGte g), isUni i = false := by
    intro i hi; exact ((idGte_iff hg i).mp (List.mem_filter.mp hi).2).1
  obtain ⟨a1, a2, a3, a4, a5, a6, a7⟩ := foldStop_cut rejected _ h hl1
  obtain ⟨b1, b2⟩ := foldStop_spec rejected ((c.send.map (·.1)).filter (idGte g)) h
  generalize hc1 : List.foldl (fun c id => (handleStop c id rejected).1) c
    ((c.send.map (·.1)).filter (idGte g)) = c1 at a1 a2 a3 a4 a5 a6 a7 b1 b2 ⊢
  obtain ⟨d1, d2, d3, d4, d5, d6⟩ := foldClose_cut rejected ((c1.recv.map (·.1)).filter (idGte g)) b1
  obtain ⟨_, e2⟩ := foldClose_spec (.remote rejected) ((c1.recv.map (·.1)).filter (idGte g)) b1
  have inl : ∀ i k, isUni i = false → g ≤ i → get c1.recv i = some k →
      i ∈ (c1.recv.map (·.1)).filter (idGte g) := by
    intro i k hu hi hk
    exact List.mem_filter.mpr ⟨mem_keys hk, (idGte_iff hg i).mpr ⟨hu, hi⟩⟩
  have inl' : ∀ i k, isUni i = false → g ≤ i → get c.send i = some k →
      i ∈ (c.send.map (·.1)).filter (idGte g) := by
    intro i k hu hi hk
    exact List.mem_filter.mpr ⟨mem_keys hk, (idGte_iff hg i).mpr ⟨hu, hi⟩⟩
  have out : ∀ (l : List Nat) i, (isUni i = true ∨ i < g) → i ∉ l.filter (idGte g) := by
    intro l i hi hm
    obtain ⟨u, w⟩ := (idGte_iff hg i).mp (List.mem_filter.mp hm).2
    rcases hi with e | e
    · rw [e] at u; cases u
    · omega
  refine ⟨?_, ?_, ?_, ?_, ?_⟩
  · intro i hu hi
    constructor
    · cases hk : get c1.recv i with
      | none => exact d3 i hk
      | some k => exact d1 i (inl i k hu hi hk)
    · refine d2 i ?_
      cases hk : get c.send i with
      | none => exact a2 i hk
      | some k => exact a1 i (inl' i k hu hi hk)
  · intro i k hi hk hw
    exact d5 i k (out _ i hi) (a5 i k (out _ i hi) hk hw) hw
  · intro i k hi hk hw
    exact d4 i k (out _ i hi) (a4 i k (out _ i hi) hk hw) hw
  · intro i hu hi hk
    exact d6 i (inl i _ hu hi (a6 i hk)) (a6 i hk)
  · intro i hu hi hk
    exact e2.mem (a7 i (inl' i _ hu hi hk) hk)

/-- An accepted GOAWAY. -/
theorem handleGoaway_given {q : Bool} {c c' : C} (h : Inv q c) {g : Nat}
    (hg : handleGoaway c g = (c', none)) :
    isUni g = false ∧ isServerInit g = false ∧ Given g c c' ∧ .goaway ∈ c'.log ∧
    Forward c.st c'.st ∧ ((c.st.over = true ∧ c'.st = c.st) ∨ c'.st = .goingAway g) := by
  unfold handleGoaway at hg
  split at hg
  · cases hg
  · rename_i hb
    have hu : isUni g = false := by
      cases e : isUni g with
      | false => rfl
      | true => rw [e] at hb; simp at hb
    have hv : isServerInit g = false := by
      cases e : isServerInit g with
      | false => rfl
      | true => rw [e] at hb; simp at hb
    have K : ∀ (s : St) (c1 : C), (cutAbove (drain { c with st := s }) g).emit .goaway = c1 →
        Given g c c1 ∧ .goaway ∈ c1.log ∧ c1.st = s := by
      rintro s c1 rfl
      obtain ⟨d1, d2⟩ := drain_spec { c with st := s }
      have hi := (h.setSt s).of_base d2 d1
      have e := cutAbove_given hi hu
      refine ⟨⟨e.gone, ?_, ?_, ?_, ?_⟩, List.mem_append_right _ List.mem_cons_self,
        (cutAbove_spec hi g).2.st.trans d1.st⟩
      · intro i k x y; exact e.keepR i k x (by rw [d2.recv]; exact y)
      · intro i k x y; exact e.keepS i k x (by rw [d2.send]; exact y)
      · intro i x y z
        exact List.mem_append_left _ (e.toldR i x y (by rw [d2.recv]; exact z))
      · intro i x y z
        exact List.mem_append_left _ (e.toldS i x y (by rw [d2.send]; exact z))
    have K' : ∀ (c1 : C), (cutAbove c g).emit .goaway = c1 →
        Given g c c1 ∧ .goaway ∈ c1.log ∧ c1.st = c.st := by
      rintro c1 rfl
      have e := cutAbove_given h hu
      exact ⟨⟨e.gone, e.keepR, e.keepS,
          fun i x y z => List.mem_append_left _ (e.toldR i x y z),
          fun i x y z => List.mem_append_left _ (e.toldS i x y z)⟩,
        List.mem_append_right _ List.mem_cons_self, (cutAbove_spec h g).2.st⟩
    refine ⟨hu, hv, ?_⟩
    split at hg
    · rename_i hs
      injection hg with hg _
      obtain ⟨k1, k2, k3⟩ := K _ _ hg
      refine ⟨k1, k2, ?_, Or.inr k3⟩
      rw [hs, k3]
      exact ⟨by simp only [St.rank]; omega, fun _ _ e => by cases e⟩
    · rename_i old hs
      split at hg
      · cases hg
      · rename_i hle
        injection hg with hg _
        obtain ⟨k1, k2, k3⟩ := K _ _ hg
        refine ⟨k1, k2, ?_, Or.inr k3⟩
        rw [hs, k3]
        refine ⟨Nat.le_refl _, ?_⟩
        intro a b e1 e2; cases e1; cases e2; omega
    · rename_i hs
      injection hg with hg _
      obtain ⟨k1, k2, k3⟩ := K' _ hg
      exact ⟨k1, k2, Forward.of_eq k3, Or.inl ⟨by rw [hs]; rfl, k3⟩⟩
    · rename_i hs
      injection hg with hg _
      obtain ⟨k1, k2, k3⟩ := K' _ hg
      exact ⟨k1, k2, Forward.of_eq k3, Or.inl ⟨by rw [hs]; rfl, k3⟩⟩
    · cases hg
    · cases hg

/-- A GOAWAY that is not accepted changes nothing by itself. -/
theorem handleGoaway_err {c c' : C} {g : Nat} {e : Err} (hg : handleGoaway c g = (c', some e)) :
    c' = c := by
  unfold handleGoaway at hg
  split at hg
  · cases hg; rfl
  · split at hg
    · cases hg
    · split at hg
      · cases hg; rfl
      · cases hg
    · cases hg
    · cases hg
    · cases hg; rfl
    · cases hg; rfl

/-! ### Requests stay below the limit -/

/-- On a client that was told to go away, no request at or above the limit is left. -/
def Below (c : C) : Prop :=
  ∀ g, c.st = .goingAway g → ∀ i, isUni i = false → g ≤ i →
    (∀ k, get c.recv i = some k → k.req = false) ∧ (∀ k, get c.send i = some k → k.req = false)

theorem Below.of {c : C} (h : ∀ g, c.st ≠ .goingAway g) : Below c :=
  fun g e => absurd e (h g)

theorem Below.over {c : C} (h : c.st.over = true) : Below c :=
  Below.of (fun g e => by rw [e] at h; cases h)

theorem Below.track {c c' : C} (h : Below c) (t : Track c c') (hr : c.role = .client)
    (hst : c'.st = c.st) : Below c' := by
  intro g e i hu hi
  obtain ⟨h1, h2⟩ := h g (by rw [← hst]; exact e) i hu hi
  constructor
  · intro k hk
    cases hq : k.req with
    | false => rfl
    | true =>
      obtain ⟨k', e1, e2⟩ := t.reqR hr i k hk hq
      rw [h1 k' e1] at e2; cases e2
  · intro k hk
    cases hq : k.req with
    | false => rfl
    | true =>
      obtain ⟨k', e1, e2⟩ := t.reqS hr i k hk hq
      rw [h2 k' e1] at e2; cases e2

theorem clientFrames_order {q : Bool} (l : List Fr) : ∀ {c : C}, Inv q c →
    Forward c.st (clientFrames c l).1.st ∧ (Below c → Below (clientFrames c l).1) ∧
      (c.st.closedNow = false → (clientFrames c l).1.st.closedNow = false) := by
  induction l with
  | nil => intro c h; exact ⟨Forward.refl _, fun h => h, fun h => h⟩
  | cons f t ih =>
    intro c h
    unfold clientFrames
    split
    · exact ih h
    · exact ⟨Forward.refl _, fun h => h, fun h => h⟩
    · rename_i g
      have hi := handleGoaway_inv h g
      split
      · rename_i c1 e hq; rw [handleGoaway_err hq]; exact ⟨Forward.refl _, fun h => h, fun h => h⟩
      · rename_i c1 hq; rw [hq] at hi
        obtain ⟨g1, g2, g3, g4, g5, g6⟩ := handleGoaway_given h hq
        obtain ⟨a1, a2, a3⟩ := ih hi.1
        refine ⟨g5.trans a1, fun hb => a2 ?_, fun hc => a3 ?_⟩
        rotate_left
        · rcases g6 with ⟨_, g6⟩ | g6
          · rw [g6]; exact hc
          · rw [g6]; rfl
        intro g' e i hu hle
        rcases g6 with ⟨g6, _⟩ | g6
        · have := g5.1
          rw [e] at this
          cases hs : c.st with
          | closing r => rw [hs] at this; simp only [St.rank] at this; omega
          | closed r => rw [hs] at this; simp only [St.rank] at this; omega
          | _ => rw [hs] at g6; cases g6
        · rw [g6] at e; cases e
          obtain ⟨x, y⟩ := g3.gone i hu hle
          exact ⟨fun k hk => (by rw [x] at hk; cases hk), fun k hk => (by rw [y] at hk; cases hk)⟩
    all_goals exact ⟨Forward.refl _, fun h => h, fun h => h⟩

theorem createRemote_st {c : C} (s id : Nat) : (createRemote c s id).1.st = c.st := by
  unfold createRemote
  split
  · rfl
  · rename_i x hx
    unfold createStream
    split
    · rfl
    · dsimp only
      have := (addStream_spec c s x id (getSession_some hx).2).2.2.1.st
      split <;> split <;> exact this

/-- Reading moves the state only through GOAWAY. -/
theorem readable_order {q : Bool} {c : C} (h : Inv q c) (id : Nat) (i : In)
    (hf : Fits q c (.readable id i)) :
    Forward c.st (readable c id i).1.st ∧
      (c.role = .client → Below c → Below (readable c id i).1) ∧
      (c.st.closedNow = false → (readable c id i).1.st.closedNow = false) := by
  have htr := readable_track h id i hf
  have hb := readableBase_spec h id i.first i.second i (fun t e _ => (hf t e).1)
  have ht := readableBase_track h id i.first i.second i (fun t e _ => (hf t e).1)
  dsimp only at hb
  have fin : (readable c id i).1.st = c.st →
      Forward c.st (readable c id i).1.st ∧
      (c.role = .client → Below c → Below (readable c id i).1) ∧
      (c.st.closedNow = false → (readable c id i).1.st.closedNow = false) :=
    fun e => ⟨Forward.of_eq e, fun hr hb => hb.track htr.1 hr e, fun h => by rw [e]; exact h⟩
  unfold readable at fin ⊢
  split
  · rename_i c1 e hq; rw [hq] at hb fin; exact fin hb.2.1
  · rename_i c1 p hq; rw [hq] at hb fin
    obtain ⟨a1, a2, a3, a4, a5⟩ := hb
    obtain ⟨b1, b2, _⟩ := a5 _ rfl
    split
    · rename_i hr; dsimp only at fin hr; rw [hr] at fin
      exact fin ((newPush_inv a1 b1 b2 p i).2.1.trans a2)
    · rename_i hr; dsimp only at fin hr; rw [hr] at fin
      exact fin a2
  · rename_i c1 hq; rw [hq] at hb fin
    obtain ⟨a1, a2, a3, a4, a5⟩ := hb
    obtain ⟨b1, b2, _⟩ := a5 _ rfl
    split
    · rename_i hr; dsimp only at fin hr; rw [hr] at fin
      exact fin a2
    · rename_i hrs
      dsimp only at a1 a2 a3 b1 b2 hrs
      have hi := a1.newHttp b1 b2 .http (.http false) (Or.inl ⟨rfl, rfl⟩)
      have hr := readableBase_spec hi id i.second .pending i (by
        intro t _ e
        have e' : get (put c1.recv id RK.http) id = some .head := e
        rw [get_put, if_pos rfl] at e'; cases e')
      refine ⟨Forward.of_eq ?_, fun e => ?_, fun h => ?_⟩
      · rw [drop2_fst]; exact hr.2.1.trans a2
      · rw [← a3, hrs] at e; cases e
      · rw [drop2_fst]
        have := hr.2.1.trans a2
        rw [this]; exact h
  · rename_i c1 s hq; rw [hq] at hb fin
    obtain ⟨a1, a2, a3, a4, a5⟩ := hb
    obtain ⟨b1, b2, b3, _, b5⟩ := a5 _ rfl
    obtain ⟨_, f2, f3⟩ := hf _ b3
    dsimp only at a1 a2 a3 b1 b2 b5 fin
    have hst := createRemote_st (c := c1) s id
    split
    · rename_i c2 e hq2; rw [hq2] at hst fin
      exact fin (hst.trans a2)
    · rename_i c2 hq2; rw [hq2] at hst fin
      have hi : Inv q c2 ∧ get c2.recv id ≠ some .head := by
        unfold createRemote at hq2
        split at hq2
        · cases hq2
        · rename_i x hx
          have hc := (createStream_spec a1 false b1 b2 hx (by rw [a3]; exact f2) (by
            intro e
            refine f3 s x rfl ?_ e
            rw [← b5]; exact (getSession_some hx).2)).1
          rw [hq2] at hc
          refine ⟨hc, ?_⟩
          unfold createStream at hq2
          split at hq2
          · cases hq2
          · have g2 := (getSession_some hx).2
            obtain ⟨z1, z2, _, _⟩ := addStream_spec c1 s x id g2
            injection hq2 with hq2 _
            rw [← hq2]
            intro e
            split at e
            · have e' : get (put _ id (RK.wt s)) id = some .head := e
              rw [get_put, if_pos rfl] at e'; cases e'
            · split at e
              · have e' : get (addStream c1 s x id).recv id = some .head := e
                rw [z1, b1] at e'; cases e'
              · rw [z1, b1] at e; cases e
      have hr := readableBase_spec hi.1 id i.second .pending i (by
        intro t _ e; exact absurd e hi.2)
      refine fin ?_
      dsimp only
      rw [drop2_fst]
      exact hr.2.1.trans (hst.trans a2)
  · rename_i c1 fs hq; rw [hq] at hb fin ht
    obtain ⟨a1, a2, a3, a4, a5⟩ := hb
    dsimp only at a1 a2 a3 fin
    split
    · rename_i hr
      obtain ⟨x1, x2, x3⟩ := clientFrames_order fs a1
      exact ⟨(Forward.of_eq a2).trans x1, fun hrole hbe => x2 (hbe.track ht.1 hrole a2),
        fun h => x3 (by rw [a2]; exact h)⟩
    · rename_i hr; rw [hr] at fin
      exact fin ((serverFrames_spec fs a1).2.1.st.trans a2)
  · rename_i c1 o _ _ _ _ hq
    rw [hq] at hb
    refine ⟨Forward.of_eq hb.2.1, fun hrole hbe => hbe.track ?_ hrole hb.2.1,
      fun h => by dsimp only at hb; rw [hb.2.1]; exact h⟩
    rw [hq] at ht; exact ht.1

end Neqo.H3c
