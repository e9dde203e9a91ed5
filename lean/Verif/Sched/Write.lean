import Verif.Sched.Iter
import Verif.Sched.Inv

namespace Neqo.Sched

variable {σ γ : Type}

/-- The laws of a stream that writes frames: the room shrinks, a STREAM frame takes some, and `false`
is returned only if there is no room for another frame. -/
structure WriterOk (w : Writer σ γ) : Prop where
  le : ∀ sh st rem, (w.write sh st rem).rem ≤ rem
  lt : ∀ sh st rem, (w.write sh st rem).wrote = true → (w.write sh st rem).rem < rem
  full : ∀ sh st rem, (w.write sh st rem).more = false → (w.write sh st rem).rem < 2

/-- How an offer ended. -/
def Offer.turn (o : Offer) : Turn := if o.more then (if o.wrote then .wrote else .nothing) else .full

/-- The settings of the streams. -/
def sets (m : List (Nat × Strm σ)) : List (Nat × Bool × Option Nat × Option Nat) :=
  m.map (fun e => (e.1, e.2.fair, e.2.order, e.2.group))

theorem sets_keys {m m' : List (Nat × Strm σ)} (h : sets m' = sets m) : m'.map (·.1) = m.map (·.1) := by
  have := congrArg (List.map (·.1)) h
  unfold sets at this
  rw [List.map_map, List.map_map] at this
  exact this

theorem sets_length {m m' : List (Nat × Strm σ)} (h : sets m' = sets m) : m'.length = m.length := by
  have := congrArg List.length h
  unfold sets at this
  rw [List.length_map, List.length_map] at this
  exact this

theorem sets_Keys {m m' : List (Nat × Strm σ)} (h : sets m' = sets m) (hk : Keys m) : Keys m' := by
  unfold Keys
  rw [sets_keys h]
  exact hk

theorem sets_find {m m' : List (Nat × Strm σ)} (h : sets m' = sets m) (id : Nat) {x : Strm σ}
    (hx : imFind m id = some x) :
    ∃ st, imFind m' id = some { x with st } := by
  induction m generalizing m' with
  | nil => cases hx
  | cons e m ih =>
    cases m' with
    | nil => cases h
    | cons e' m' =>
      unfold sets at h
      rw [List.map_cons, List.map_cons] at h
      obtain ⟨h1, h2⟩ := List.cons.inj h
      obtain ⟨a, b⟩ := Prod.mk.inj h1
      obtain ⟨b, c⟩ := Prod.mk.inj b
      obtain ⟨c, d⟩ := Prod.mk.inj c
      rw [imFind_cons] at hx ⊢
      rw [a]
      by_cases hk : e.1 = id
      · rw [if_pos hk] at hx ⊢
        obtain rfl := Option.some.inj hx
        refine ⟨e'.2.st, ?_⟩
        rw [← b, ← c, ← d]
      · rw [if_neg hk] at hx ⊢
        exact ih h2 hx

theorem sets_imSet {m : List (Nat × Strm σ)} (hk : Keys m) {id : Nat} {x : Strm σ} (hx : imFind m id = some x)
    (st : σ) : sets (imSet m id { x with st }) = sets m := by
  unfold sets imSet
  rw [List.map_map]
  apply List.map_congr_left
  intro e he
  show (fun e : Nat × Strm σ => (e.1, e.2.fair, e.2.order, e.2.group)) (if e.1 = id then (e.1, { x with st }) else e) = _
  by_cases h : e.1 = id
  · rw [if_pos h]
    have := hk.find (show (e.1, e.2) ∈ m from he)
    rw [h, hx] at this
    obtain rfl := Option.some.inj this
    rfl
  · rw [if_neg h]

theorem imFind_sets_none {m m' : List (Nat × Strm σ)} (h : sets m' = sets m) (id : Nat)
    (hx : imFind m id = none) : imFind m' id = none := by
  rw [imFind_eq_none] at hx ⊢
  rw [sets_keys h]
  exact hx

/-- What happened between two moments: the calls made, in order. -/
structure Did (w : Writer σ γ) (e e' : Env σ γ) (os : List Offer) : Prop where
  log : e'.log = os.reverse ++ e.log
  sets : sets e'.map = sets e.map
  rem : e'.rem ≤ e.rem
  lt : ∀ o ∈ os, o.turn = .wrote → e'.rem < e.rem
  full : ∀ o ∈ os, o.turn = .full → e'.rem < 2
  keep : ∀ f : σ → Bool, (∀ sh st rem, f (w.write sh st rem).st = f st) →
    e'.map.map (fun x => f x.2.st) = e.map.map (fun x => f x.2.st)

theorem Did.nil {w : Writer σ γ} (e : Env σ γ) : Did w e e [] :=
  ⟨rfl, rfl, Nat.le_refl _, (fun _ h => by cases h), (fun _ h => by cases h), fun _ _ => rfl⟩

theorem Did.append {w : Writer σ γ} {e e' e'' : Env σ γ} {os os' : List Offer} (h : Did w e e' os) (h' : Did w e' e'' os') :
    Did w e e'' (os ++ os') := by
  refine ⟨by rw [h'.log, h.log, List.reverse_append, List.append_assoc], h'.sets.trans h.sets,
    Nat.le_trans h'.rem h.rem, fun o ho ht => ?_, fun o ho ht => ?_, fun f hf => (h'.keep f hf).trans (h.keep f hf)⟩
  · rcases List.mem_append.mp ho with a | a
    · exact Nat.lt_of_le_of_lt h'.rem (h.lt o a ht)
    · exact Nat.lt_of_lt_of_le (h'.lt o a ht) h.rem
  · rcases List.mem_append.mp ho with a | a
    · exact Nat.lt_of_le_of_lt h'.rem (h.full o a ht)
    · exact h'.full o a ht

/-- One call. -/
theorem offer_spec {w : Writer σ γ} (hw : WriterOk w) {e : Env σ γ} (hk : Keys e.map) {id : Nat} {x : Strm σ}
    (hx : imFind e.map id = some x) :
    ∃ e' o, e.offer w id x = (e', o.turn) ∧ o.id = id ∧ o.room = e.rem ∧ Did w e e' [o] := by
  refine ⟨(e.offer w id x).1, Offer.mk id e.rem (w.write e.sh x.st e.rem).wrote (w.write e.sh x.st e.rem).more, rfl, rfl, rfl, rfl, sets_imSet hk hx _, hw.le _ _ _, ?_, ?_, ?_⟩
  · intro o ho ht
    obtain rfl := List.mem_singleton.mp ho
    apply hw.lt
    unfold Offer.turn at ht
    dsimp only at ht
    split at ht
    · split at ht
      · assumption
      · cases ht
    · cases ht
  · intro o ho ht
    obtain rfl := List.mem_singleton.mp ho
    apply hw.full
    unfold Offer.turn at ht
    dsimp only at ht
    split at ht
    · split at ht <;> cases ht
    · rename_i hh
      cases hm : (w.write e.sh x.st e.rem).more with
      | true => exact absurd hm hh
      | false => rfl
  · intro f hf
    show (imSet e.map id { x with st := (w.write e.sh x.st e.rem).st }).map _ = _
    unfold imSet
    rw [List.map_map]
    apply List.map_congr_left
    intro y hy
    show f (if y.1 = id then (y.1, { x with st := (w.write e.sh x.st e.rem).st }) else y).2.st = _
    by_cases h : y.1 = id
    · rw [if_pos h]
      have := hk.find (show (y.1, y.2) ∈ e.map from hy)
      rw [h, hx] at this
      obtain rfl := Option.some.inj this
      exact hf _ _ _
    · rw [if_neg h]

/-- A turn along a sequence of streams: they are offered the packet in order, until one ends it. -/
inductive Res : List Nat → List Offer → Turn → Prop where
  | nothing {os : List Offer} : (∀ o ∈ os, o.turn = .nothing) → Res (os.map (·.id)) os .nothing
  | stop {pre : List Offer} {o : Offer} (rest : List Nat) : (∀ o ∈ pre, o.turn = .nothing) → o.turn ≠ .nothing →
      Res ((pre ++ [o]).map (·.id) ++ rest) (pre ++ [o]) o.turn

theorem Res.nil : Res [] [] .nothing := Res.nothing (os := []) (fun _ h => by cases h)

theorem Res.append {s1 s2 : List Nat} {o1 o2 : List Offer} {t : Turn} (h1 : Res s1 o1 .nothing) (h2 : Res s2 o2 t) :
    Res (s1 ++ s2) (o1 ++ o2) t := by
  generalize ht : Turn.nothing = t1 at h1
  cases h1 with
  | stop rest hp ho => exact absurd ht.symm ho
  | nothing hq =>
    cases h2 with
    | nothing hq2 =>
      rw [← List.map_append]
      exact Res.nothing (fun o ho => (List.mem_append.mp ho).elim (hq o) (hq2 o))
    | @stop pre o rest hp ho =>
      rw [← List.append_assoc, ← List.map_append, ← List.append_assoc]
      exact Res.stop rest (fun o ho => (List.mem_append.mp ho).elim (hq o) (hp o)) ho

theorem Res.more {s1 : List Nat} (s2 : List Nat) {os : List Offer} {t : Turn} (h : Res s1 os t) (ht : t ≠ .nothing) :
    Res (s1 ++ s2) os t := by
  cases h with
  | nothing => exact absurd rfl ht
  | stop rest hp ho =>
    rw [List.append_assoc]
    exact Res.stop (rest ++ s2) hp ho

theorem Res.last {s : List Nat} {os : List Offer} {t : Turn} (h : Res s os t) (ht : t ≠ .nothing) :
    ∃ o ∈ os, o.turn = t := by
  cases h with
  | nothing => exact absurd rfl ht
  | @stop pre o rest hp ho => exact ⟨o, List.mem_append_right _ List.mem_cons_self, rfl⟩

/-- The loop over a bucket. -/
theorem scan_spec {w : Writer σ γ} (hw : WriterOk w) (n : Nat) (it : It) (e : Env σ γ) (hk : Keys e.map)
    (hi : it.Ok) (hn : it.rest.length < n) (hm : ∀ id ∈ it.rest, id ∈ e.map.map (·.1)) :
    ∃ it' e' t os, scan w n it e = (it', e', t) ∧ Did w e e' os ∧ Res it.rest os t ∧
      it' = (It.visit os.length it).1 := by
  induction n generalizing it e with
  | zero => omega
  | succ n ih =>
    unfold scan
    rcases It.step_spec hi with ⟨h1, h2⟩ | ⟨i', id, h1, h2, h3, h4⟩
    · rw [h1, h2]
      exact ⟨_, _, _, [], rfl, Did.nil e, Res.nil, rfl⟩
    · rw [h1, h4]
      have hid : id ∈ e.map.map (·.1) := hm id (by rw [h4]; exact List.mem_cons_self)
      obtain ⟨x, hx⟩ := Option.isSome_iff_exists.mp (imFind_isSome.mpr hid)
      dsimp only
      rw [hx]
      dsimp only
      obtain ⟨e1, o, a, b, _, d⟩ := offer_spec hw hk hx
      rw [a]
      have hvis : ∀ k, (It.visit (k + 1) it).1 = (It.visit k i').1 := by
        intro k
        show (match it.step with
          | (i, none) => (i, [])
          | (i, some id) => match It.visit k i with
            | (i, l) => (i, id :: l)).1 = _
        rw [h1]
      cases ht : o.turn with
      | nothing =>
        dsimp only
        obtain ⟨it', e', t, os, k1, k2, k3, k4⟩ := ih i' e1 (sets_Keys d.sets hk) h2
          (by rw [h4, List.length_cons] at hn; omega)
          (by
            intro j hj
            rw [sets_keys d.sets]
            exact hm j (by rw [h4]; exact List.mem_cons_of_mem _ hj))
        refine ⟨it', e', t, o :: os, k1, d.append k2, ?_, ?_⟩
        · have : Res [id] [o] .nothing := by
            have := Res.nothing (os := [o]) (by intro o' ho'; rw [List.mem_singleton.mp ho']; exact ht)
            rw [show [o].map (·.id) = [id] from by rw [← b]; rfl] at this
            exact this
          exact this.append k3
        · rw [List.length_cons, hvis]
          exact k4
      | wrote =>
        dsimp only
        refine ⟨_, _, _, [o], rfl, d, ?_, ?_⟩
        · have := Res.stop (pre := []) (o := o) i'.rest (fun _ h => by cases h) (by rw [ht]; decide)
          rw [ht, show ([] ++ [o] : List Offer).map (·.id) = [id] from by rw [← b]; rfl] at this
          exact this
        · exact (hvis 0).symm
      | full =>
        dsimp only
        refine ⟨_, _, _, [o], rfl, d, ?_, ?_⟩
        · have := Res.stop (pre := []) (o := o) i'.rest (fun _ h => by cases h) (by rw [ht]; decide)
          rw [ht, show ([] ++ [o] : List Offer).map (·.id) = [id] from by rw [← b]; rfl] at this
          exact this
        · exact (hvis 0).symm

theorem Res.length {s : List Nat} {os : List Offer} {t : Turn} (h : Res s os t) : os.length ≤ s.length := by
  cases h with
  | nothing => rw [List.length_map]; exact Nat.le_refl _
  | stop rest _ _ => simp

theorem Og.order_length (g : Og) : g.order.length = g.vec.length := rot_length _ _

/-- The turn of a bucket: its streams are visited in order, and the next turn resumes after the last
stream visited. -/
theorem Og.turn_spec {w : Writer σ γ} (hw : WriterOk w) (g : Og) (e : Env σ γ) (hk : Keys e.map)
    (hm : ∀ id ∈ g.vec, id ∈ e.map.map (·.1)) :
    ∃ g' e' t os, g.turn w e = (g', e', t) ∧ Did w e e' os ∧ Res g.order os t ∧ g'.vec = g.vec ∧
      g'.order = g.order.drop os.length ++ g.order.take os.length := by
  unfold Og.turn
  obtain ⟨it', e', t, os, k1, k2, k3, k4⟩ := scan_spec hw (g.vec.length + 1) g.iter e hk g.iter_ok
    (by rw [Og.iter_rest, Og.order_length]; omega)
    (by intro id hid; rw [Og.iter_rest] at hid; exact hm id (mem_rot.mp hid))
  rw [k1]
  have hvec : it'.g.vec = g.vec := by
    rw [k4, (It.visit_spec g.iter_ok).2, Og.iter_g]
  rw [Og.iter_rest] at k3
  have hl := k3.length
  rw [Og.order_length] at hl
  refine ⟨_, _, _, os, rfl, k2, k3, hvec, ?_⟩
  by_cases he : g.vec = []
  · unfold Og.order
    rw [hvec, he]
    simp [rot]
  · have hpos : 0 < g.vec.length := List.length_pos_iff.mpr he
    have hlt := clamp_lt (n := g.next) hpos
    have hnext := It.visit_next (k := os.length) g.iter_ok (by rw [Og.iter_rest, Og.order_length]; exact hl)
    rw [← k4, Og.iter_g] at hnext
    dsimp only at hnext
    have hok : it'.g.next < it'.g.vec.length := by
      have : ∀ k (i : It), i.Ok → i.g.vec ≠ [] → (It.visit k i).1.g.next < i.g.vec.length := by
        intro k
        induction k with
        | zero => intro i hi hv; exact hi.next hv
        | succ k ih =>
          intro i hi hv
          unfold It.visit
          rcases It.step_spec hi with ⟨h1, h2⟩ | ⟨i', id, h1, h2, h3, h4⟩
          · rw [h1]; exact hi.next hv
          · rw [h1]
            have := ih i' h2 (by rw [h3]; exact hv)
            rw [h3] at this
            exact this
      have := this os.length g.iter g.iter_ok (by rw [Og.iter_g]; exact he)
      rw [← k4] at this
      rw [hvec]
      rw [Og.iter_g] at this
      exact this
    show rot it'.g.vec (clamp it'.g.next it'.g.vec.length) = _
    rw [clamp_of_lt hok, hvec]
    rw [hvec] at hok
    rw [Nat.mod_eq_of_lt hok] at hnext
    rw [hnext]
    exact rot_rot g.vec _ os.length hlt hl

/-! ### Groups -/

/-- The streams with an order, the highest first. -/
def orderedSeq : SMap Og → List Nat
  | [] => []
  | (_, g) :: m => orderedSeq m ++ g.order

/-- The order in which a group offers the packet. -/
def Queues.seq (q : Queues) : List Nat := orderedSeq q.ordered ++ q.regular.order

/-- What turns leave unchanged. -/
def Queues.shape (q : Queues) : List (Nat × List Nat) × List Nat :=
  (q.ordered.map (fun e => (e.1, e.2.vec)), q.regular.vec)

theorem orderedTurn_spec {w : Writer σ γ} (hw : WriterOk w) (m : SMap Og) (e : Env σ γ) (hk : Keys e.map)
    (hm : ∀ b ∈ m, ∀ id ∈ b.2.vec, id ∈ e.map.map (·.1)) :
    ∃ m' e' t os, orderedTurn w m e = (m', e', t) ∧ Did w e e' os ∧ Res (orderedSeq m) os t ∧
      m'.map (fun e => (e.1, e.2.vec)) = m.map (fun e => (e.1, e.2.vec)) := by
  induction m generalizing e with
  | nil => exact ⟨_, _, _, [], rfl, Did.nil e, Res.nil, rfl⟩
  | cons b m ih =>
    obtain ⟨m', e', t, os, h1, h2, h3, h4⟩ := ih e hk (fun c hc => hm c (List.mem_cons_of_mem _ hc))
    obtain ⟨o, g⟩ := b
    unfold orderedTurn
    rw [h1]
    cases t with
    | nothing =>
      dsimp only
      obtain ⟨g', e'', t', os', k1, k2, k3, k4, _⟩ := g.turn_spec hw e' (sets_Keys h2.sets hk)
        (by intro id hid; rw [sets_keys h2.sets]; exact hm (o, g) List.mem_cons_self id hid)
      rw [k1]
      refine ⟨_, _, _, os ++ os', rfl, h2.append k2, h3.append k3, ?_⟩
      rw [List.map_cons, List.map_cons, h4, k4]
    | wrote =>
      refine ⟨_, _, _, os, rfl, h2, h3.more _ (by decide), ?_⟩
      rw [List.map_cons, List.map_cons, h4]
    | full =>
      refine ⟨_, _, _, os, rfl, h2, h3.more _ (by decide), ?_⟩
      rw [List.map_cons, List.map_cons, h4]

theorem Queues.turn_spec {w : Writer σ γ} (hw : WriterOk w) (q : Queues) (e : Env σ γ) (hk : Keys e.map)
    (hm : ∀ b ∈ q.ordered, ∀ id ∈ b.2.vec, id ∈ e.map.map (·.1)) (hr : ∀ id ∈ q.regular.vec, id ∈ e.map.map (·.1)) :
    ∃ q' e' t os, q.turn w e = (q', e', t) ∧ Did w e e' os ∧ Res q.seq os t ∧ q'.shape = q.shape := by
  obtain ⟨m', e', t, os, h1, h2, h3, h4⟩ := orderedTurn_spec hw q.ordered e hk hm
  unfold Queues.turn
  rw [h1]
  cases t with
  | nothing =>
    dsimp only
    obtain ⟨g', e'', t', os', k1, k2, k3, k4, _⟩ := q.regular.turn_spec hw e' (sets_Keys h2.sets hk)
      (by intro id hid; rw [sets_keys h2.sets]; exact hr id hid)
    rw [k1]
    refine ⟨_, _, _, os ++ os', rfl, h2.append k2, h3.append k3, ?_⟩
    unfold Queues.shape
    rw [h4, k4]
  | wrote =>
    refine ⟨_, _, _, os, rfl, h2, h3.more _ (by decide), ?_⟩
    unfold Queues.shape
    rw [h4]
  | full =>
    refine ⟨_, _, _, os, rfl, h2, h3.more _ (by decide), ?_⟩
    unfold Queues.shape
    rw [h4]

theorem mem_orderedSeq {m : SMap Og} {id : Nat} : id ∈ orderedSeq m ↔ ∃ b ∈ m, id ∈ b.2.vec := by
  induction m with
  | nil => simp [orderedSeq]
  | cons b m ih =>
    obtain ⟨o, g⟩ := b
    show id ∈ orderedSeq m ++ g.order ↔ _
    rw [List.mem_append, ih, show (id ∈ g.order ↔ id ∈ g.vec) from mem_rot]
    constructor
    · rintro (⟨b, hb, h⟩ | h)
      · exact ⟨b, List.mem_cons_of_mem _ hb, h⟩
      · exact ⟨(o, g), List.mem_cons_self, h⟩
    · rintro ⟨b, hb, h⟩
      rcases List.mem_cons.mp hb with rfl | hb
      · exact Or.inr h
      · exact Or.inl ⟨b, hb, h⟩

theorem Queues.mem_seq {q : Queues} (hq : QOk q) {id : Nat} : id ∈ q.seq ↔ ∃ o, q.mem o id := by
  unfold Queues.seq
  rw [List.mem_append, mem_orderedSeq, show (id ∈ q.regular.order ↔ id ∈ q.regular.vec) from mem_rot]
  constructor
  · rintro (⟨b, hb, h⟩ | h)
    · refine ⟨some b.1, ?_⟩
      show id ∈ ((SMap.find q.ordered b.1).getD {}).vec
      rw [hq.sorted.find_eq_some.mpr (show (b.1, b.2) ∈ q.ordered from hb)]
      exact h
    · exact ⟨none, h⟩
  · rintro ⟨o, h⟩
    cases o with
    | none => exact Or.inr h
    | some o =>
      have h : id ∈ ((SMap.find q.ordered o).getD {}).vec := h
      cases hf : SMap.find q.ordered o with
      | none => rw [hf] at h; cases h
      | some g =>
        rw [hf] at h
        exact Or.inl ⟨(o, g), hq.sorted.find_eq_some.mp hf, h⟩

/-- An order that is served before another. -/
def higher : Option Nat → Option Nat → Prop
  | some k', some k => k < k'
  | some _, none => True
  | none, _ => False

instance (a b : Option Nat) : Decidable (higher a b) := by
  unfold higher
  cases a <;> cases b <;> infer_instance

theorem not_higher_self (a : Option Nat) : ¬ higher a a := by
  cases a with
  | none => exact id
  | some a => exact Nat.lt_irrefl a

/-- No stream is visited before one of a higher order. -/
theorem Queues.seq_pairwise {q : Queues} (hq : QOk q) (f : Nat → Option Nat)
    (hf : ∀ o id, q.mem o id → f id = o) : q.seq.Pairwise (fun a b => ¬ higher (f b) (f a)) := by
  have hb : ∀ b ∈ q.ordered, ∀ id ∈ b.2.vec, f id = some b.1 := by
    intro b hb id hid
    apply hf
    show id ∈ ((SMap.find q.ordered b.1).getD {}).vec
    rw [hq.sorted.find_eq_some.mpr (show (b.1, b.2) ∈ q.ordered from hb)]
    exact hid
  have hsame : ∀ (g : Og) (o : Option Nat), (∀ id ∈ g.vec, f id = o) →
      g.order.Pairwise (fun a b => ¬ higher (f b) (f a)) := by
    intro g o hg
    apply List.Pairwise.imp_of_mem (R := fun _ _ => True)
    · intro a b ha hb' _
      rw [hg a (mem_rot.mp ha), hg b (mem_rot.mp hb')]
      exact not_higher_self o
    · exact List.pairwise_of_forall (fun _ _ => trivial)
  have hord : ∀ m : SMap Og, SMap.Sorted m → (∀ b ∈ m, ∀ id ∈ b.2.vec, f id = some b.1) →
      (orderedSeq m).Pairwise (fun a b => ¬ higher (f b) (f a)) := by
    intro m
    induction m with
    | nil => intro _ _; exact List.Pairwise.nil
    | cons b m ih =>
      intro hs hb
      obtain ⟨o, g⟩ := b
      show (orderedSeq m ++ g.order).Pairwise _
      have hs' := hs
      unfold SMap.Sorted at hs'
      rw [List.pairwise_cons] at hs'
      refine List.pairwise_append.mpr ⟨ih hs'.2 (fun c hc => hb c (List.mem_cons_of_mem _ hc)),
        hsame g (some o) (hb (o, g) List.mem_cons_self), ?_⟩
      intro x hx y hy
      obtain ⟨c, hc, hxc⟩ := mem_orderedSeq.mp hx
      rw [hb c (List.mem_cons_of_mem _ hc) x hxc, hb (o, g) List.mem_cons_self y (mem_rot.mp hy)]
      have := hs'.1 c hc
      intro hh
      have hh : c.1 < o := hh
      have this : o < c.1 := this
      omega
  refine List.pairwise_append.mpr ⟨hord _ hq.sorted hb, hsame _ none (fun id hid => hf none id hid), ?_⟩
  intro x hx y hy
  rw [hf none y (mem_rot.mp hy)]
  exact id

/-! ### Strict order -/

/-- Before a stream is offered the packet, each that goes before it was, in the same turn, and nothing
has been written since. -/
def Ordered (before same : Nat → Nat → Prop) (log : List Offer) : Prop :=
  ∀ pre o post, log = pre ++ o :: post → ∀ b, before b o.id →
    ∃ p x r, pre = p ++ x :: r ∧ x.id = b ∧ ∀ y ∈ x :: r, y.turn = .nothing ∧ same y.id o.id

theorem Ordered.nil (before same : Nat → Nat → Prop) : Ordered before same [] := by
  intro pre o post h
  have := congrArg List.length h
  simp at this

theorem append_eq_split {α : Type} {l1 l2 pre post : List α} {o : α} (h : l1 ++ l2 = pre ++ o :: post) :
    (∃ q, l1 = pre ++ o :: q) ∨ (∃ q, pre = l1 ++ q ∧ l2 = q ++ o :: post) := by
  rcases List.append_eq_append_iff.mp h with ⟨a, h1, h2⟩ | ⟨a, h1, h2⟩
  · exact Or.inr ⟨a, h1, h2⟩
  · cases a with
    | nil =>
      right
      refine ⟨[], ?_, ?_⟩
      · rw [h1]; simp
      · rw [h2]; simp
    | cons y a =>
      left
      obtain ⟨rfl, _⟩ := List.cons.inj h2
      exact ⟨a, h1⟩

theorem Ordered.append {before same : Nat → Nat → Prop} {l1 l2 : List Offer} (h1 : Ordered before same l1)
    (h2 : Ordered before same l2) : Ordered before same (l1 ++ l2) := by
  intro pre o post h b hb
  rcases append_eq_split h with ⟨q, hq⟩ | ⟨q, hq1, hq2⟩
  · exact h1 pre o q hq b hb
  · obtain ⟨p, x, r, k1, k2, k3⟩ := h2 q o post hq2 b hb
    exact ⟨l1 ++ p, x, r, by rw [hq1, k1, List.append_assoc], k2, k3⟩

/-- The calls of a turn are ordered, as its sequence is. -/
theorem Res.ordered {before same : Nat → Nat → Prop} {seq : List Nat} {os : List Offer} {t : Turn} (h : Res seq os t)
    (hall : ∀ a ∈ seq, ∀ b, before b a → b ∈ seq ∧ b ≠ a) (hs : ∀ a ∈ seq, ∀ b ∈ seq, same b a)
    (hp : seq.Pairwise (fun a b => ¬ before b a)) : Ordered before same os := by
  intro pre o post ho b hb
  have hq : ∀ x ∈ pre, x.turn = .nothing := by
    intro x hx
    cases h with
    | nothing hq => exact hq x (by rw [ho]; exact List.mem_append_left _ hx)
    | @stop pre' o' rest hp' hne =>
      rcases append_eq_split ho with ⟨q, hq⟩ | ⟨q, hq1, hq2⟩
      · exact hp' x (by rw [hq]; exact List.mem_append_left _ hx)
      · cases q with
        | nil =>
          rw [List.append_nil] at hq1
          rw [hq1] at hx
          exact hp' x hx
        | cons z q =>
          have := congrArg List.length hq2
          simp at this
  have hsub : ∃ s2, seq = pre.map (·.id) ++ o.id :: s2 := by
    cases h with
    | nothing hq' => exact ⟨post.map (·.id), by rw [ho]; simp⟩
    | @stop pre' o' rest hp' hne => exact ⟨post.map (·.id) ++ rest, by rw [ho]; simp⟩
  obtain ⟨s2, hs2⟩ := hsub
  have hoin : o.id ∈ seq := by rw [hs2]; exact List.mem_append_right _ List.mem_cons_self
  obtain ⟨hbin, hbne⟩ := hall o.id hoin b hb
  have hbpre : b ∈ pre.map (·.id) := by
    rw [hs2] at hbin hp
    rcases List.mem_append.mp hbin with hh | hh
    · exact hh
    · rcases List.mem_cons.mp hh with hh | hh
      · exact absurd hh hbne
      · have := (List.pairwise_cons.mp (List.pairwise_append.mp hp).2.1).1 b hh
        exact absurd hb this
  obtain ⟨x, hx, hxid⟩ := List.mem_map.mp hbpre
  obtain ⟨p, r, hpr⟩ := List.append_of_mem hx
  refine ⟨p, x, r, hpr, hxid, fun y hy => ?_⟩
  have hyp : y ∈ pre := by rw [hpr]; exact List.mem_append_right _ hy
  exact ⟨hq y hyp, hs _ hoin _ (by rw [hs2]; exact List.mem_append_left _ (List.mem_map.mpr ⟨y, hyp, rfl⟩))⟩

end Neqo.Sched
