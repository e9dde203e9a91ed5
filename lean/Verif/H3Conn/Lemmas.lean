import Verif.H3Conn.Model

/-! Helper lemmas about the HTTP/3 connection: tables, removal of streams, and the invariant. -/

namespace Neqo.H3c

variable {α : Type}

@[simp] theorem get_nil (k : Nat) : get ([] : List (Nat × α)) k = none := rfl

theorem get_del (l : List (Nat × α)) (k j : Nat) :
    get (del l k) j = if j = k then none else get l j := by
  induction l with
  | nil => simp [del]
  | cons p t ih =>
    obtain ⟨a, v⟩ := p
    unfold del at ih ⊢
    rw [List.filter_cons]
    by_cases ha : a = k
    · subst ha
      simp only [bne_self_eq_false, Bool.false_eq_true, if_false]
      rw [ih]
      by_cases hj : j = a
      · simp [hj]
      · simp only [hj, if_false, get]
        rw [if_neg (fun h => hj h.symm)]
    · have : (a != k) = true := by simp [ha]
      simp only [this, if_true, get]
      rw [ih]
      by_cases hj : a = j
      · subst hj; simp [ha]
      · simp [hj]

theorem get_put (l : List (Nat × α)) (k : Nat) (v : α) (j : Nat) :
    get (put l k v) j = if j = k then some v else get l j := by
  unfold put
  rw [get, get_del]
  by_cases h : k = j
  · simp [h]
  · have : ¬ j = k := fun e => h e.symm
    simp [h, this]

/-- The streams registered with a session. -/
def lists (c : C) (s : Nat) : Option (List Nat × List Nat) :=
  (get c.sess s).map (fun x => (x.recv, x.send))

theorem lists_setSess (c : C) (id : Nat) (x : Sess) (j : Nat) :
    lists (c.setSess id x) j = if j = id then some (x.recv, x.send) else lists c j := by
  unfold lists C.setSess
  dsimp only
  rw [get_put]
  split <;> rfl

theorem lists_some {c : C} {s : Nat} {x : Sess} (h : get c.sess s = some x) :
    lists c s = some (x.recv, x.send) := by unfold lists; rw [h]; rfl

/-- What only tells the application or the transport about a stream. -/
def Eff.plain : Eff → Bool
  | .reset .. | .stopped .. | .readable .. | .sessionEnd .. | .stopSending .. | .resetSend .. => true
  | _ => false

/-- Nothing but streams has changed. -/
structure Frame (c c' : C) : Prop where
  role : c'.role = c.role
  st : c'.st = c.st
  remote : c'.remote = c.remote
  ctl : c'.ctl = c.ctl
  enc : c'.enc = c.enc
  dec : c'.dec = c.dec
  wtF : c'.wtF = c.wtF
  udpF : c'.udpF = c.udpF
  dead : c'.dead = c.dead
  log : ∃ l, c'.log = c.log ++ l ∧ ∀ e ∈ l, e.plain = true

theorem Frame.refl (c : C) : Frame c c :=
  ⟨rfl, rfl, rfl, rfl, rfl, rfl, rfl, rfl, rfl, [], by simp, by simp⟩

theorem Frame.trans {a b c : C} (h : Frame a b) (k : Frame b c) : Frame a c := by
  refine ⟨k.role.trans h.role, k.st.trans h.st, k.remote.trans h.remote, k.ctl.trans h.ctl,
    k.enc.trans h.enc, k.dec.trans h.dec, k.wtF.trans h.wtF, k.udpF.trans h.udpF,
    k.dead.trans h.dead, ?_⟩
  obtain ⟨l, hl, pl⟩ := h.log
  obtain ⟨m, hm, pm⟩ := k.log
  refine ⟨l ++ m, by rw [hm, hl, List.append_assoc], ?_⟩
  intro e he
  rcases List.mem_append.mp he with h | h
  · exact pl e h
  · exact pm e h

theorem Frame.emit (c : C) (e : Eff) (h : e.plain = true) : Frame c (c.emit e) :=
  ⟨rfl, rfl, rfl, rfl, rfl, rfl, rfl, rfl, rfl, [e], rfl, by simp [h]⟩

theorem Frame.setSess (c : C) (i : Nat) (x : Sess) : Frame c (c.setSess i x) :=
  ⟨rfl, rfl, rfl, rfl, rfl, rfl, rfl, rfl, rfl, [], by simp [C.setSess], by simp⟩

theorem Frame.tables (c : C) (r : List (Nat × RK)) (s : List (Nat × SK)) :
    Frame c { c with recv := r, send := s } :=
  ⟨rfl, rfl, rfl, rfl, rfl, rfl, rfl, rfl, rfl, [], by simp, by simp⟩

theorem Frame.recv (c : C) (r : List (Nat × RK)) : Frame c { c with recv := r } :=
  Frame.tables c r c.send

theorem Frame.send (c : C) (s : List (Nat × SK)) : Frame c { c with send := s } :=
  Frame.tables c c.recv s

/-- The tables are as before, and every session has the streams it had. -/
structure Still (c c' : C) : Prop where
  recv : c'.recv = c.recv
  send : c'.send = c.send
  lists : ∀ j, lists c' j = lists c j

theorem Still.refl (c : C) : Still c c := ⟨rfl, rfl, fun _ => rfl⟩

theorem Still.trans {a b c : C} (h : Still a b) (k : Still b c) : Still a c :=
  ⟨k.recv.trans h.recv, k.send.trans h.send, fun j => (k.lists j).trans (h.lists j)⟩

theorem Still.emit (c : C) (e : Eff) : Still c (c.emit e) := ⟨rfl, rfl, fun _ => rfl⟩

theorem Still.setSess {c : C} {i : Nat} {x y : Sess} (h : get c.sess i = some x)
    (hr : y.recv = x.recv) (hs : y.send = x.send) : Still c (c.setSess i y) := by
  refine ⟨rfl, rfl, ?_⟩
  intro j
  rw [lists_setSess]
  split
  · rename_i e; subst e; rw [lists_some h, hr, hs]
  · rfl

theorem recvClosed_spec (c : C) (id : Nat) (ct : CT) :
    Frame c (recvClosed c id ct) ∧ Still c (recvClosed c id ct) := by
  unfold recvClosed
  split
  all_goals first
    | exact ⟨Frame.refl _, Still.refl _⟩
    | exact ⟨Frame.emit _ _ rfl, Still.emit _ _⟩

theorem sendClosed_spec (c : C) (id : Nat) (ct : CT) :
    Frame c (sendClosed c id ct) ∧ Still c (sendClosed c id ct) := by
  unfold sendClosed
  split
  all_goals first
    | exact ⟨Frame.refl _, Still.refl _⟩
    | exact ⟨Frame.emit _ _ rfl, Still.emit _ _⟩

theorem closeSession_spec (c : C) (id : Nat) (ct : CT) :
    Frame c (closeSession c id ct) ∧ Still c (closeSession c id ct) := by
  unfold closeSession
  split
  · exact ⟨Frame.refl _, Still.refl _⟩
  · rename_i s hs
    split
    · exact ⟨Frame.refl _, Still.refl _⟩
    · have h1 : Still c (c.setSess id { s with st := .done }) := Still.setSess hs rfl rfl
      have h2 := Frame.setSess c id { s with st := .done }
      dsimp only
      split
      · exact ⟨h2, h1⟩
      · exact ⟨h2.trans (Frame.emit _ _ rfl), h1.trans (Still.emit _ _)⟩

theorem dropSubRecv_frame (c : C) (s id : Nat) : Frame c (dropSubRecv c s id) := by
  unfold dropSubRecv
  split
  · exact Frame.refl _
  · exact Frame.setSess _ _ _

theorem dropSubSend_frame (c : C) (s id : Nat) : Frame c (dropSubSend c s id) := by
  unfold dropSubSend
  split
  · exact Frame.refl _
  · exact Frame.setSess _ _ _

theorem dropSubRecv_tables (c : C) (s id : Nat) :
    (dropSubRecv c s id).recv = c.recv ∧ (dropSubRecv c s id).send = c.send := by
  unfold dropSubRecv
  split <;> exact ⟨rfl, rfl⟩

theorem dropSubSend_tables (c : C) (s id : Nat) :
    (dropSubSend c s id).recv = c.recv ∧ (dropSubSend c s id).send = c.send := by
  unfold dropSubSend
  split <;> exact ⟨rfl, rfl⟩

theorem dropSubRecv_lists (c : C) (s id j : Nat) :
    lists (dropSubRecv c s id) j =
      if j = s then (lists c s).map (fun p => (p.1.filter (· != id), p.2)) else lists c j := by
  unfold dropSubRecv
  split
  · rename_i h
    split
    · rename_i e; subst e; simp [lists, h]
    · rfl
  · rename_i x h
    rw [lists_setSess, lists_some h]
    rfl

theorem dropSubSend_lists (c : C) (s id j : Nat) :
    lists (dropSubSend c s id) j =
      if j = s then (lists c s).map (fun p => (p.1, p.2.filter (· != id))) else lists c j := by
  unfold dropSubSend
  split
  · rename_i h
    split
    · rename_i e; subst e; simp [lists, h]
    · rfl
  · rename_i x h
    rw [lists_setSess, lists_some h]
    rfl

/-! ### Removing the streams of a session -/

theorem cutRecv_spec {c : C} {s i : Nat} {b : List Nat} (hs : lists c s = some ([], b))
    (hi : get c.recv i = some (.wt s) ∨ get c.recv i = none) :
    Frame c (cutRecv c i) ∧ (∀ j, lists (cutRecv c i) j = lists c j) ∧
      (cutRecv c i).send = c.send ∧
      ∀ j, get (cutRecv c i).recv j = if j = i then none else get c.recv j := by
  unfold cutRecv
  dsimp only
  rcases hi with h | h
  · rw [h]
    dsimp only [resetRecv]
    have f1 := Frame.recv c (del c.recv i)
    obtain ⟨f2, s2⟩ := recvClosed_spec { c with recv := del c.recv i } i (.remote cancelled)
    have f3 := dropSubRecv_frame (recvClosed { c with recv := del c.recv i } i (.remote cancelled)) s i
    obtain ⟨t1, t2⟩ :=
      dropSubRecv_tables (recvClosed { c with recv := del c.recv i } i (.remote cancelled)) s i
    refine ⟨((f1.trans f2).trans f3).trans (Frame.emit _ _ rfl), ?_, ?_, ?_⟩
    · intro j
      show lists (dropSubRecv _ s i) j = _
      rw [dropSubRecv_lists, s2.lists, s2.lists]
      show (if j = s then (lists c s).map _ else lists c j) = _
      split
      · rename_i e; subst e; rw [hs]; rfl
      · rfl
    · show (dropSubRecv _ s i).send = _
      rw [t2, s2.send]
    · intro j
      show get (dropSubRecv _ s i).recv j = _
      rw [t1, s2.recv, get_del]
  · rw [h]
    refine ⟨Frame.emit _ _ rfl, fun _ => rfl, rfl, ?_⟩
    intro j
    show get c.recv j = _
    split
    · rename_i e; rw [e, h]
    · rfl

theorem cutSend_spec {c : C} {s i : Nat} {a : List Nat} (hs : lists c s = some (a, []))
    (hi : get c.send i = some (.wt s) ∨ get c.send i = none) :
    Frame c (cutSend c i) ∧ (∀ j, lists (cutSend c i) j = lists c j) ∧
      (cutSend c i).recv = c.recv ∧
      ∀ j, get (cutSend c i).send j = if j = i then none else get c.send j := by
  unfold cutSend
  dsimp only
  rcases hi with h | h
  · rw [h]
    dsimp only [stopSend]
    have f1 := Frame.send c (del c.send i)
    obtain ⟨f2, s2⟩ := sendClosed_spec { c with send := del c.send i } i (.remote cancelled)
    have f3 := dropSubSend_frame (sendClosed { c with send := del c.send i } i (.remote cancelled)) s i
    obtain ⟨t1, t2⟩ :=
      dropSubSend_tables (sendClosed { c with send := del c.send i } i (.remote cancelled)) s i
    refine ⟨((f1.trans f2).trans f3).trans (Frame.emit _ _ rfl), ?_, ?_, ?_⟩
    · intro j
      show lists (dropSubSend _ s i) j = _
      rw [dropSubSend_lists, s2.lists, s2.lists]
      show (if j = s then (lists c s).map _ else lists c j) = _
      split
      · rename_i e; subst e; rw [hs]; rfl
      · rfl
    · show (dropSubSend _ s i).recv = _
      rw [t1, s2.recv]
    · intro j
      show get (dropSubSend _ s i).send j = _
      rw [t2, s2.send, get_del]
  · rw [h]
    refine ⟨Frame.emit _ _ rfl, fun _ => rfl, rfl, ?_⟩
    intro j
    show get c.send j = _
    split
    · rename_i e; rw [e, h]
    · rfl

theorem foldCutRecv_spec (s : Nat) (b : List Nat) (l : List Nat) (c : C)
    (hs : lists c s = some ([], b))
    (hl : ∀ i ∈ l, get c.recv i = some (.wt s) ∨ get c.recv i = none) :
    Frame c (l.foldl cutRecv c) ∧ (∀ j, lists (l.foldl cutRecv c) j = lists c j) ∧
      (l.foldl cutRecv c).send = c.send ∧
      ∀ j, get (l.foldl cutRecv c).recv j = if j ∈ l then none else get c.recv j := by
  induction l generalizing c with
  | nil => exact ⟨Frame.refl _, fun _ => rfl, rfl, fun j => by simp⟩
  | cons a t ih =>
    obtain ⟨f, hx, hsd, hr⟩ := cutRecv_spec hs (hl a (List.mem_cons_self ..))
    have hs' : lists (cutRecv c a) s = some ([], b) := by rw [hx]; exact hs
    have hl' : ∀ i ∈ t, get (cutRecv c a).recv i = some (.wt s) ∨ get (cutRecv c a).recv i = none := by
      intro i hi
      rw [hr]
      split
      · exact Or.inr rfl
      · exact hl i (List.mem_cons_of_mem _ hi)
    obtain ⟨f', hx', hsd', hr'⟩ := ih (cutRecv c a) hs' hl'
    rw [List.foldl_cons]
    refine ⟨f.trans f', fun j => (hx' j).trans (hx j), hsd'.trans hsd, ?_⟩
    intro j
    rw [hr', hr]
    by_cases h1 : j = a
    · subst h1; simp
    · simp [h1]

theorem foldCutSend_spec (s : Nat) (a : List Nat) (l : List Nat) (c : C)
    (hs : lists c s = some (a, []))
    (hl : ∀ i ∈ l, get c.send i = some (.wt s) ∨ get c.send i = none) :
    Frame c (l.foldl cutSend c) ∧ (∀ j, lists (l.foldl cutSend c) j = lists c j) ∧
      (l.foldl cutSend c).recv = c.recv ∧
      ∀ j, get (l.foldl cutSend c).send j = if j ∈ l then none else get c.send j := by
  induction l generalizing c with
  | nil => exact ⟨Frame.refl _, fun _ => rfl, rfl, fun j => by simp⟩
  | cons b t ih =>
    obtain ⟨f, hx, hsd, hr⟩ := cutSend_spec hs (hl b (List.mem_cons_self ..))
    have hs' : lists (cutSend c b) s = some (a, []) := by rw [hx]; exact hs
    have hl' : ∀ i ∈ t, get (cutSend c b).send i = some (.wt s) ∨ get (cutSend c b).send i = none := by
      intro i hi
      rw [hr]
      split
      · exact Or.inr rfl
      · exact hl i (List.mem_cons_of_mem _ hi)
    obtain ⟨f', hx', hsd', hr'⟩ := ih (cutSend c b) hs' hl'
    rw [List.foldl_cons]
    refine ⟨f.trans f', fun j => (hx' j).trans (hx j), hsd'.trans hsd, ?_⟩
    intro j
    rw [hr', hr]
    by_cases h1 : j = b
    · subst h1; simp
    · simp [h1]

theorem removeExt_spec {c : C} {s : Nat} {a b : List Nat} (hx : lists c s = some (a, b))
    (hr : ∀ i ∈ a, get c.recv i = some (.wt s)) (hs : ∀ i ∈ b, get c.send i = some (.wt s)) :
    Frame c (removeExt c s) ∧
      (∀ j, lists (removeExt c s) j = if j = s then some ([], []) else lists c j) ∧
      (∀ j, get (removeExt c s).recv j = if j ∈ a then none else get c.recv j) ∧
      ∀ j, get (removeExt c s).send j = if j ∈ b then none else get c.send j := by
  cases hg : get c.sess s with
  | none => simp [lists, hg] at hx
  | some x =>
    rw [lists_some hg] at hx
    cases hx
    unfold removeExt
    rw [hg]
    dsimp only
    have l1 : ∀ j, lists (c.setSess s { x with recv := [], send := [] }) j =
        if j = s then some ([], []) else lists c j := fun j => lists_setSess ..
    obtain ⟨f1, x1, s1, r1⟩ := foldCutRecv_spec s [] x.recv
      (c.setSess s { x with recv := [], send := [] }) (by rw [l1]; simp)
      (fun i hi => Or.inl (hr i hi))
    have l2 : lists (x.recv.foldl cutRecv (c.setSess s { x with recv := [], send := [] })) s
        = some ([], []) := by rw [x1, l1]; simp
    obtain ⟨f2, x2, r2, s2⟩ := foldCutSend_spec s [] x.send
      (x.recv.foldl cutRecv (c.setSess s { x with recv := [], send := [] })) l2
      (fun i hi => Or.inl (by rw [s1]; exact hs i hi))
    refine ⟨((Frame.setSess ..).trans f1).trans f2, ?_, ?_, ?_⟩
    · intro j; rw [x2, x1, l1]
    · intro j; rw [r2, r1]; rfl
    · intro j; rw [s2, s1]; rfl

/-! ### The invariant -/

/-- What holds between the tables and the sessions. With `calm`, every stream of a session is also
registered with it. -/
structure Inv (calm : Bool) (c : C) : Prop where
  subR : ∀ s a b i, lists c s = some (a, b) → i ∈ a → get c.recv i = some (.wt s)
  subS : ∀ s a b i, lists c s = some (a, b) → i ∈ b → get c.send i = some (.wt s)
  gone : ∀ s a b, lists c s = some (a, b) → get c.recv s ≠ some .session → a = [] ∧ b = []
  pairR : ∀ i, get c.recv i = some .session →
    (∃ p, lists c i = some p) ∧ ∃ f, get c.send i = some (.session f)
  pairS : ∀ i f, get c.send i = some (.session f) → get c.recv i = some .session
  ext : ∀ i k, get c.send i = some k → k.ext = true → ∃ r, get c.recv i = some r ∧ r.ext = true
  wtS : ∀ i s k, get c.send i = some (.wt s) → get c.recv i = some k → k = .wt s
  wtR : ∀ i s k, get c.recv i = some (.wt s) → get c.send i = some k → k = .wt s
  head : ∀ i, get c.recv i = some .head → get c.send i = none
  uni : ∀ i k, get c.recv i = some k → k.critical = true → isUni i = true
  one : ∀ i j k, get c.recv i = some k → get c.recv j = some k → k.critical = true → i = j
  own : ∀ i, sendCritical c i = true → isUni i = true
  regR : calm = true → ∀ i s, get c.recv i = some (.wt s) → ∃ a b, lists c s = some (a, b) ∧ i ∈ a
  regS : calm = true → ∀ i s, get c.send i = some (.wt s) → ∃ a b, lists c s = some (a, b) ∧ i ∈ b

theorem Inv.of_still {q : Bool} {c c' : C} (h : Inv q c) (S : Still c c')
    (h1 : c'.ctl = c.ctl) (h2 : c'.enc = c.enc) (h3 : c'.dec = c.dec) : Inv q c' := by
  have hl := S.lists
  constructor
  · intro s a b i; rw [hl, S.recv]; exact h.subR s a b i
  · intro s a b i; rw [hl, S.send]; exact h.subS s a b i
  · intro s a b; rw [hl, S.recv]; exact h.gone s a b
  · intro i; rw [hl, S.recv, S.send]; exact h.pairR i
  · intro i f; rw [S.recv, S.send]; exact h.pairS i f
  · intro i k; rw [S.recv, S.send]; exact h.ext i k
  · intro i t k; rw [S.recv, S.send]; exact h.wtS i t k
  · intro i t k; rw [S.recv, S.send]; exact h.wtR i t k
  · intro i; rw [S.recv, S.send]; exact h.head i
  · intro i k; rw [S.recv]; exact h.uni i k
  · intro i j k; rw [S.recv]; exact h.one i j k
  · intro i hi; exact h.own i (by unfold sendCritical at hi ⊢; rw [h1, h2, h3] at hi; exact hi)
  · intro e i s; rw [S.recv]; simp only [hl]; exact h.regR e i s
  · intro e i s; rw [S.send]; simp only [hl]; exact h.regS e i s

theorem Inv.of_frame {q : Bool} {c c' : C} (h : Inv q c) (s : Still c c') (f : Frame c c') :
    Inv q c' := h.of_still s f.ctl f.enc f.dec

theorem Inv.emit {q : Bool} {c : C} (h : Inv q c) (e : Eff) : Inv q (c.emit e) :=
  h.of_still (Still.emit _ _) rfl rfl rfl

/-- Both halves of streams of other kinds than `wt` and `session` can go. -/
theorem Inv.delete {q : Bool} {c c' : C} (h : Inv q c) (hl : ∀ j, lists c' j = lists c j)
    (id : Nat) (dr ds : Bool)
    (hr : ∀ j, get c'.recv j = if j = id ∧ dr = true then none else get c.recv j)
    (hs : ∀ j, get c'.send j = if j = id ∧ ds = true then none else get c.send j)
    (h1 : c'.ctl = c.ctl) (h2 : c'.enc = c.enc) (h3 : c'.dec = c.dec)
    (kr : dr = true → get c.recv id ≠ some .session ∧ ∀ s, get c.recv id ≠ some (.wt s))
    (ks : ds = true → (∀ f, get c.send id ≠ some (.session f)) ∧ ∀ s, get c.send id ≠ some (.wt s))
    (ke : dr = true → ds = false → ∀ k, get c.send id = some k → k.ext = false) :
    Inv q c' := by
  have R : ∀ j k, get c'.recv j = some k → get c.recv j = some k ∧ ¬ (j = id ∧ dr = true) := by
    intro j k e; rw [hr] at e; split at e
    · cases e
    · exact ⟨e, by assumption⟩
  have S : ∀ j k, get c'.send j = some k → get c.send j = some k ∧ ¬ (j = id ∧ ds = true) := by
    intro j k e; rw [hs] at e; split at e
    · cases e
    · exact ⟨e, by assumption⟩
  have RW : ∀ j s, get c.recv j = some (.wt s) → get c'.recv j = some (.wt s) := by
    intro j s e; rw [hr, if_neg]; exact e
    rintro ⟨rfl, e'⟩; exact (kr e').2 s e
  have SW : ∀ j s, get c.send j = some (.wt s) → get c'.send j = some (.wt s) := by
    intro j s e; rw [hs, if_neg]; exact e
    rintro ⟨rfl, e'⟩; exact (ks e').2 s e
  have RS : ∀ j, get c.recv j = some .session → get c'.recv j = some .session := by
    intro j e; rw [hr, if_neg]; exact e
    rintro ⟨rfl, e'⟩; exact (kr e').1 e
  have SS : ∀ j f, get c.send j = some (.session f) → get c'.send j = some (.session f) := by
    intro j f e; rw [hs, if_neg]; exact e
    rintro ⟨rfl, e'⟩; exact (ks e').1 f e
  constructor
  · intro s a b i e hi; rw [hl] at e; exact RW _ _ (h.subR s a b i e hi)
  · intro s a b i e hi; rw [hl] at e; exact SW _ _ (h.subS s a b i e hi)
  · intro s a b e hn; rw [hl] at e; exact h.gone s a b e (fun x => hn (RS _ x))
  · intro i e; rw [hl]
    obtain ⟨p, f, hf⟩ := h.pairR i (R _ _ e).1
    exact ⟨p, f, SS _ _ hf⟩
  · intro i f e; exact RS _ (h.pairS i f (S _ _ e).1)
  · intro i k e hk
    obtain ⟨e1, e2⟩ := S _ _ e
    obtain ⟨r, hr1, hr2⟩ := h.ext i k e1 hk
    refine ⟨r, ?_, hr2⟩
    rw [hr, if_neg]; exact hr1
    rintro ⟨rfl, d⟩
    cases hds : ds with
    | true => exact e2 ⟨rfl, hds⟩
    | false => rw [ke d hds k e1] at hk; cases hk
  · intro i s k e e'; exact h.wtS i s k (S _ _ e).1 (R _ _ e').1
  · intro i s k e e'; exact h.wtR i s k (R _ _ e).1 (S _ _ e').1
  · intro i e
    have := h.head i (R _ _ e).1
    rw [hs]; split
    · rfl
    · exact this
  · intro i k e; exact h.uni i k (R _ _ e).1
  · intro i j k e e'; exact h.one i j k (R _ _ e).1 (R _ _ e').1
  · intro i hi; exact h.own i (by unfold sendCritical at hi ⊢; rw [h1, h2, h3] at hi; exact hi)
  · intro e i s e'; rw [hl]; exact h.regR e i s (R _ _ e').1
  · intro e i s e'; rw [hl]; exact h.regS e i s (S _ _ e').1

/-- The receiving half of a session's stream goes, from the table and from the session. -/
theorem Inv.delWtR {q : Bool} {c c' : C} (h : Inv q c) {id s : Nat}
    (hk : get c.recv id = some (.wt s))
    (hl : ∀ j, lists c' j =
      if j = s then (lists c s).map (fun p => (p.1.filter (· != id), p.2)) else lists c j)
    (hr : ∀ j, get c'.recv j = if j = id then none else get c.recv j)
    (hs : c'.send = c.send)
    (h1 : c'.ctl = c.ctl) (h2 : c'.enc = c.enc) (h3 : c'.dec = c.dec) : Inv q c' := by
  have R : ∀ j k, get c'.recv j = some k → get c.recv j = some k ∧ j ≠ id := by
    intro j k e; rw [hr] at e; split at e
    · cases e
    · exact ⟨e, by assumption⟩
  have L : ∀ t a b, lists c' t = some (a, b) →
      ∃ a', lists c t = some (a', b) ∧ ∀ i, i ∈ a → i ∈ a' ∧ (t = s → i ≠ id) := by
    intro t a b e; rw [hl] at e
    split at e
    · rename_i et; subst et
      cases hx : lists c t with
      | none => rw [hx] at e; cases e
      | some p =>
        obtain ⟨u, v⟩ := p
        rw [hx] at e
        simp only [Option.map_some, Option.some.injEq, Prod.mk.injEq] at e
        obtain ⟨e1, e2⟩ := e
        subst e1; subst e2
        refine ⟨u, rfl, ?_⟩
        intro i hi
        rw [List.mem_filter] at hi
        exact ⟨hi.1, fun _ => by simpa using hi.2⟩
    · rename_i hne
      exact ⟨a, e, fun i hi => ⟨hi, fun x => absurd x hne⟩⟩
  constructor
  · intro t a b i e hi
    obtain ⟨a', e', ha⟩ := L t a b e
    have hi' := h.subR t a' b i e' (ha i hi).1
    rw [hr, if_neg]; exact hi'
    rintro rfl
    rw [hk] at hi'; cases hi'
    exact (ha _ hi).2 rfl rfl
  · intro t a b i e hi
    obtain ⟨a', e', ha⟩ := L t a b e
    rw [hs]; exact h.subS t a' b i e' hi
  · intro t a b e hn
    obtain ⟨a', e', ha⟩ := L t a b e
    have := h.gone t a' b e' (by
      intro x; apply hn; rw [hr, if_neg]; exact x
      rintro rfl; rw [hk] at x; cases x)
    refine ⟨?_, this.2⟩
    rw [List.eq_nil_iff_forall_not_mem]
    intro i hi
    have hm := (ha i hi).1
    rw [this.1] at hm
    cases hm
  · intro i e
    obtain ⟨⟨p, hp⟩, f, hf⟩ := h.pairR i (R _ _ e).1
    refine ⟨?_, f, by rw [hs]; exact hf⟩
    rw [hl]; split
    · rename_i ei; subst ei; rw [hp]; exact ⟨_, rfl⟩
    · exact ⟨p, hp⟩
  · intro i f e
    rw [hs] at e
    have := h.pairS i f e
    rw [hr, if_neg]; exact this
    rintro rfl; rw [hk] at this; cases this
  · intro i k e hx
    rw [hs] at e
    obtain ⟨r, hr1, hr2⟩ := h.ext i k e hx
    refine ⟨r, ?_, hr2⟩
    rw [hr, if_neg]; exact hr1
    rintro rfl; rw [hk] at hr1; cases hr1; cases hr2
  · intro i t k e e'; rw [hs] at e; exact h.wtS i t k e (R _ _ e').1
  · intro i t k e e'; rw [hs] at e'; exact h.wtR i t k (R _ _ e).1 e'
  · intro i e; rw [hs]; exact h.head i (R _ _ e).1
  · intro i k e; exact h.uni i k (R _ _ e).1
  · intro i j k e e'; exact h.one i j k (R _ _ e).1 (R _ _ e').1
  · intro i hi; exact h.own i (by unfold sendCritical at hi ⊢; rw [h1, h2, h3] at hi; exact hi)
  · intro e i t e'
    obtain ⟨e1, e2⟩ := R _ _ e'
    obtain ⟨a, b, ha, hi⟩ := h.regR e i t e1
    rw [hl]; split
    · rename_i et; subst et; rw [ha]
      exact ⟨_, _, rfl, by rw [List.mem_filter]; exact ⟨hi, by simpa using e2⟩⟩
    · exact ⟨a, b, ha, hi⟩
  · intro e i t e'
    rw [hs] at e'
    obtain ⟨a, b, ha, hi⟩ := h.regS e i t e'
    rw [hl]; split
    · rename_i et; subst et; rw [ha]
      exact ⟨_, _, rfl, hi⟩
    · exact ⟨a, b, ha, hi⟩

/-- The sending half of a session's stream goes, from the table and from the session. -/
theorem Inv.delWtS {q : Bool} {c c' : C} (h : Inv q c) {id s : Nat}
    (hk : get c.send id = some (.wt s))
    (hl : ∀ j, lists c' j =
      if j = s then (lists c s).map (fun p => (p.1, p.2.filter (· != id))) else lists c j)
    (hs : ∀ j, get c'.send j = if j = id then none else get c.send j)
    (hr : c'.recv = c.recv)
    (h1 : c'.ctl = c.ctl) (h2 : c'.enc = c.enc) (h3 : c'.dec = c.dec) : Inv q c' := by
  have S : ∀ j k, get c'.send j = some k → get c.send j = some k ∧ j ≠ id := by
    intro j k e; rw [hs] at e; split at e
    · cases e
    · exact ⟨e, by assumption⟩
  have L : ∀ t a b, lists c' t = some (a, b) →
      ∃ b', lists c t = some (a, b') ∧ ∀ i, i ∈ b → i ∈ b' ∧ (t = s → i ≠ id) := by
    intro t a b e; rw [hl] at e
    split at e
    · rename_i et; subst et
      cases hx : lists c t with
      | none => rw [hx] at e; cases e
      | some p =>
        obtain ⟨u, v⟩ := p
        rw [hx] at e
        simp only [Option.map_some, Option.some.injEq, Prod.mk.injEq] at e
        obtain ⟨e1, e2⟩ := e
        subst e1; subst e2
        refine ⟨v, rfl, ?_⟩
        intro i hi
        rw [List.mem_filter] at hi
        exact ⟨hi.1, fun _ => by simpa using hi.2⟩
    · rename_i hne
      exact ⟨b, e, fun i hi => ⟨hi, fun x => absurd x hne⟩⟩
  constructor
  · intro t a b i e hi
    obtain ⟨b', e', ha⟩ := L t a b e
    rw [hr]; exact h.subR t a b' i e' hi
  · intro t a b i e hi
    obtain ⟨b', e', ha⟩ := L t a b e
    have hi' := h.subS t a b' i e' (ha i hi).1
    rw [hs, if_neg]; exact hi'
    rintro rfl
    rw [hk] at hi'; cases hi'
    exact (ha _ hi).2 rfl rfl
  · intro t a b e hn
    obtain ⟨b', e', ha⟩ := L t a b e
    rw [hr] at hn
    have := h.gone t a b' e' hn
    refine ⟨this.1, ?_⟩
    rw [List.eq_nil_iff_forall_not_mem]
    intro i hi
    have hm := (ha i hi).1
    rw [this.2] at hm
    cases hm
  · intro i e
    rw [hr] at e
    obtain ⟨⟨p, hp⟩, f, hf⟩ := h.pairR i e
    refine ⟨?_, f, ?_⟩
    · rw [hl]; split
      · rename_i ei; subst ei; rw [hp]; exact ⟨_, rfl⟩
      · exact ⟨p, hp⟩
    · rw [hs, if_neg]; exact hf
      rintro rfl; rw [hk] at hf; cases hf
  · intro i f e
    rw [hr]; exact h.pairS i f (S _ _ e).1
  · intro i k e hx
    rw [hr]; exact h.ext i k (S _ _ e).1 hx
  · intro i t k e e'; rw [hr] at e'; exact h.wtS i t k (S _ _ e).1 e'
  · intro i t k e e'; rw [hr] at e; exact h.wtR i t k e (S _ _ e').1
  · intro i e; rw [hr] at e
    have := h.head i e
    rw [hs]; split
    · rfl
    · exact this
  · intro i k e; rw [hr] at e; exact h.uni i k e
  · intro i j k e e'; rw [hr] at e e'; exact h.one i j k e e'
  · intro i hi; exact h.own i (by unfold sendCritical at hi ⊢; rw [h1, h2, h3] at hi; exact hi)
  · intro e i t e'
    rw [hr] at e'
    obtain ⟨a, b, ha, hi⟩ := h.regR e i t e'
    rw [hl]; split
    · rename_i et; subst et; rw [ha]
      exact ⟨_, _, rfl, hi⟩
    · exact ⟨a, b, ha, hi⟩
  · intro e i t e'
    obtain ⟨e1, e2⟩ := S _ _ e'
    obtain ⟨a, b, ha, hi⟩ := h.regS e i t e1
    rw [hl]; split
    · rename_i et; subst et; rw [ha]
      exact ⟨_, _, rfl, by rw [List.mem_filter]; exact ⟨hi, by simpa using e2⟩⟩
    · exact ⟨a, b, ha, hi⟩

/-- A session goes with all its streams. -/
theorem Inv.delSession {q : Bool} {c c' : C} (h : Inv q c) {id : Nat} {a b : List Nat}
    (hk : get c.recv id = some .session) (hx : lists c id = some (a, b))
    (hl : ∀ j, lists c' j = if j = id then some ([], []) else lists c j)
    (hr : ∀ j, get c'.recv j = if j = id ∨ j ∈ a then none else get c.recv j)
    (hs : ∀ j, get c'.send j = if j = id ∨ j ∈ b then none else get c.send j)
    (h1 : c'.ctl = c.ctl) (h2 : c'.enc = c.enc) (h3 : c'.dec = c.dec) : Inv q c' := by
  obtain ⟨f0, hf0⟩ := (h.pairR id hk).2
  have R : ∀ j k, get c'.recv j = some k → get c.recv j = some k ∧ j ≠ id ∧ j ∉ a := by
    intro j k e; rw [hr] at e; split at e
    · cases e
    · rename_i hn; exact ⟨e, fun x => hn (Or.inl x), fun x => hn (Or.inr x)⟩
  have S : ∀ j k, get c'.send j = some k → get c.send j = some k ∧ j ≠ id ∧ j ∉ b := by
    intro j k e; rw [hs] at e; split at e
    · cases e
    · rename_i hn; exact ⟨e, fun x => hn (Or.inl x), fun x => hn (Or.inr x)⟩
  have A : ∀ j, j ∈ a → get c.recv j = some (.wt id) := fun j hj => h.subR id a b j hx hj
  have B : ∀ j, j ∈ b → get c.send j = some (.wt id) := fun j hj => h.subS id a b j hx hj
  have RK' : ∀ j k, j ≠ id → k ≠ .wt id → get c.recv j = some k → get c'.recv j = some k := by
    intro j k h1 h2 e
    rw [hr, if_neg]; exact e
    rintro (x | x)
    · exact h1 x
    · rw [A j x] at e; cases e; exact h2 rfl
  have SK' : ∀ j k, j ≠ id → k ≠ .wt id → get c.send j = some k → get c'.send j = some k := by
    intro j k h1 h2 e
    rw [hs, if_neg]; exact e
    rintro (x | x)
    · exact h1 x
    · rw [B j x] at e; cases e; exact h2 rfl
  have L : ∀ t u v, lists c' t = some (u, v) → (u = [] ∧ v = [] ∧ t = id) ∨
      (t ≠ id ∧ lists c t = some (u, v)) := by
    intro t u v e; rw [hl] at e; split at e
    · cases e; exact Or.inl ⟨rfl, rfl, by assumption⟩
    · exact Or.inr ⟨by assumption, e⟩
  constructor
  · intro t u v i e hi
    rcases L t u v e with ⟨rfl, rfl, rfl⟩ | ⟨hn, e'⟩
    · cases hi
    · have g := h.subR t u v i e' hi
      refine RK' i _ ?_ ?_ g
      · rintro rfl; rw [hk] at g; cases g
      · intro x; injection x with x; exact hn x
  · intro t u v i e hi
    rcases L t u v e with ⟨rfl, rfl, rfl⟩ | ⟨hn, e'⟩
    · cases hi
    · have g := h.subS t u v i e' hi
      refine SK' i _ ?_ ?_ g
      · rintro rfl; rw [hf0] at g; cases g
      · intro x; injection x with x; exact hn x
  · intro t u v e hn
    rcases L t u v e with ⟨rfl, rfl, rfl⟩ | ⟨hne, e'⟩
    · exact ⟨rfl, rfl⟩
    · exact h.gone t u v e' (fun x => hn (RK' t _ hne (by intro y; cases y) x))
  · intro i e
    obtain ⟨e1, e2, e3⟩ := R _ _ e
    obtain ⟨⟨p, hp⟩, f, hf⟩ := h.pairR i e1
    refine ⟨⟨p, by rw [hl, if_neg e2]; exact hp⟩, f, SK' i _ e2 (by intro y; cases y) hf⟩
  · intro i f e
    obtain ⟨e1, e2, e3⟩ := S _ _ e
    exact RK' i _ e2 (by intro y; cases y) (h.pairS i f e1)
  · intro i k e hx'
    obtain ⟨e1, e2, e3⟩ := S _ _ e
    obtain ⟨r, hr1, hr2⟩ := h.ext i k e1 hx'
    refine ⟨r, RK' i r e2 ?_ hr1, hr2⟩
    rintro rfl; cases hr2
  · intro i t k e e'; exact h.wtS i t k (S _ _ e).1 (R _ _ e').1
  · intro i t k e e'; exact h.wtR i t k (R _ _ e).1 (S _ _ e').1
  · intro i e
    have := h.head i (R _ _ e).1
    rw [hs]; split
    · rfl
    · exact this
  · intro i k e; exact h.uni i k (R _ _ e).1
  · intro i j k e e'; exact h.one i j k (R _ _ e).1 (R _ _ e').1
  · intro i hi; exact h.own i (by unfold sendCritical at hi ⊢; rw [h1, h2, h3] at hi; exact hi)
  · intro e i t e'
    obtain ⟨e1, e2, e3⟩ := R _ _ e'
    obtain ⟨u, v, hu, hi⟩ := h.regR e i t e1
    rw [hl]; split
    · rename_i et; subst et; rw [hx] at hu; cases hu; exact absurd hi e3
    · exact ⟨u, v, hu, hi⟩
  · intro e i t e'
    obtain ⟨e1, e2, e3⟩ := S _ _ e'
    obtain ⟨u, v, hu, hi⟩ := h.regS e i t e1
    rw [hl]; split
    · rename_i et; subst et; rw [hx] at hu; cases hu; exact absurd hi e3
    · exact ⟨u, v, hu, hi⟩

/-- Only stream `id` has gone, and streams of sessions. -/
structure Cut (id : Nat) (c c' : C) : Prop where
  recv : ∀ j, j ≠ id → get c'.recv j = get c.recv j ∨
    ((∃ s, get c.recv j = some (.wt s)) ∧ get c'.recv j = none)
  send : ∀ j, j ≠ id → get c'.send j = get c.send j ∨
    ((∃ s, get c.send j = some (.wt s)) ∧ get c'.send j = none)
  idR : get c'.recv id = none ∨ get c'.recv id = get c.recv id
  idS : get c'.send id = none ∨ get c'.send id = get c.send id

theorem Cut.refl (id : Nat) (c : C) : Cut id c c :=
  ⟨fun _ _ => Or.inl rfl, fun _ _ => Or.inl rfl, Or.inr rfl, Or.inr rfl⟩

theorem Cut.del {id : Nat} {c c' : C} (dr ds : Bool)
    (hr : ∀ j, get c'.recv j = if j = id ∧ dr = true then none else get c.recv j)
    (hs : ∀ j, get c'.send j = if j = id ∧ ds = true then none else get c.send j) :
    Cut id c c' := by
  refine ⟨?_, ?_, ?_, ?_⟩
  · intro j hj; rw [hr, if_neg (fun x => hj x.1)]; exact Or.inl rfl
  · intro j hj; rw [hs, if_neg (fun x => hj x.1)]; exact Or.inl rfl
  · rw [hr]; split
    · exact Or.inl rfl
    · exact Or.inr rfl
  · rw [hs]; split
    · exact Or.inl rfl
    · exact Or.inr rfl

theorem Cut.session {id : Nat} {c c' : C} {a b : List Nat}
    (ha : ∀ i ∈ a, get c.recv i = some (.wt id)) (hb : ∀ i ∈ b, get c.send i = some (.wt id))
    (hr : ∀ j, get c'.recv j = if j = id ∨ j ∈ a then none else get c.recv j)
    (hs : ∀ j, get c'.send j = if j = id ∨ j ∈ b then none else get c.send j) :
    Cut id c c' := by
  refine ⟨?_, ?_, ?_, ?_⟩
  · intro j hj; rw [hr]; split
    · rename_i h; rcases h with h | h
      · exact absurd h hj
      · exact Or.inr ⟨⟨_, ha j h⟩, rfl⟩
    · exact Or.inl rfl
  · intro j hj; rw [hs]; split
    · rename_i h; rcases h with h | h
      · exact absurd h hj
      · exact Or.inr ⟨⟨_, hb j h⟩, rfl⟩
    · exact Or.inl rfl
  · rw [hr]; simp
  · rw [hs]; simp

theorem Cut.still {id : Nat} {c c' c'' : C} (h : Cut id c c') (k : Still c' c'') : Cut id c c'' := by
  refine ⟨?_, ?_, ?_, ?_⟩
  · rw [k.recv]; exact h.recv
  · rw [k.send]; exact h.send
  · rw [k.recv]; exact h.idR
  · rw [k.send]; exact h.idS

/-- Removing a stream whose receiving handler is not that of a session's stream. -/
theorem removeRecv_spec {q : Bool} {c : C} (h : Inv q c) (id : Nat)
    (hk : ∀ s, get c.recv id ≠ some (.wt s)) :
    Inv q (removeRecv c id).1 ∧ Frame c (removeRecv c id).1 ∧ Cut id c (removeRecv c id).1 ∧
      get (removeRecv c id).1.recv id = none ∧
      ∀ k, get c.recv id = some k → k.ext = false →
        (removeRecv c id) = ({ c with recv := del c.recv id }, some k) := by
  unfold removeRecv
  cases hg : get c.recv id with
  | none => exact ⟨h, Frame.refl _, Cut.refl _ _, hg, by intro k hk; cases hk⟩
  | some k =>
    dsimp only
    cases hx : k.ext with
    | false =>
      simp only [Bool.false_eq_true, if_false]
      refine ⟨?_, Frame.recv _ _,
        Cut.del true false (fun j => by show get (del c.recv id) j = _; rw [get_del]; simp) (by simp),
        ?_, ?_⟩
      · refine h.delete (fun _ => rfl) id true false ?_ (by simp) rfl rfl rfl ?_ (by simp) ?_
        · intro j; show get (del c.recv id) j = _; rw [get_del]; simp
        · intro _; rw [hg]
          refine ⟨?_, fun s e => hk s (by rw [hg]; exact e)⟩
          intro e; cases e; cases hx
        · intro _ _ k' hk'
          cases hke : k'.ext with
          | false => rfl
          | true =>
            obtain ⟨r, hr1, hr2⟩ := h.ext id k' hk' hke
            rw [hg] at hr1; cases hr1; rw [hx] at hr2; cases hr2
      · show get (del c.recv id) id = none; rw [get_del]; simp
      · intro k' e _; cases e; rfl
    | true =>
      simp only [if_true]
      cases hsd : get c.send id with
      | none =>
        dsimp only
        have hns : k ≠ .session := by
          rintro rfl
          obtain ⟨f, hf⟩ := (h.pairR id hg).2
          rw [hsd] at hf; cases hf
        refine ⟨?_, Frame.recv _ _,
        Cut.del true false (fun j => by show get (del c.recv id) j = _; rw [get_del]; simp) (by simp),
        ?_, ?_⟩
        · refine h.delete (fun _ => rfl) id true false ?_ (by simp) rfl rfl rfl ?_ (by simp) ?_
          · intro j; show get (del c.recv id) j = _; rw [get_del]; simp
          · intro _; rw [hg]
            exact ⟨fun e => hns (by cases e; rfl), fun s e => hk s (by rw [hg]; exact e)⟩
          · intro _ _ k' hk'; rw [hsd] at hk'; cases hk'
        · show get (del c.recv id) id = none; rw [get_del]; simp
        · intro k' e e'; cases e; rw [hx] at e'; cases e'
      | some sk =>
        dsimp only
        have hdel : ∀ j, get (del c.recv id) j = if j = id then none else get c.recv j :=
          fun j => get_del ..
        have hdels : ∀ j, get (del c.send id) j = if j = id then none else get c.send j :=
          fun j => get_del ..
        by_cases hks : k = .session
        · subst hks
          rw [if_pos rfl]
          obtain ⟨⟨⟨a, b⟩, hp⟩, f, hf⟩ := h.pairR id hg
          obtain ⟨f1, l1, r1, s1⟩ := removeExt_spec
            (c := { c with recv := del c.recv id, send := del c.send id }) (s := id) hp
            (by
              intro i hi; have := h.subR id a b i hp hi
              show get (del c.recv id) i = _
              rw [hdel, if_neg]; exact this
              rintro rfl; rw [hg] at this; cases this)
            (by
              intro i hi; have := h.subS id a b i hp hi
              show get (del c.send id) i = _
              rw [hdels, if_neg]; exact this
              rintro rfl; rw [hf] at this; cases this)
          have f2 := (Frame.tables c (del c.recv id) (del c.send id)).trans f1
          have R : ∀ j, get (removeExt { c with recv := del c.recv id, send := del c.send id } id).recv j
              = if j = id ∨ j ∈ a then none else get c.recv j := by
            intro j; rw [r1]
            show (if j ∈ a then none else get (del c.recv id) j) = _
            rw [hdel]
            by_cases e1 : j ∈ a <;> by_cases e2 : j = id <;> simp [e1, e2]
          have S : ∀ j, get (removeExt { c with recv := del c.recv id, send := del c.send id } id).send j
              = if j = id ∨ j ∈ b then none else get c.send j := by
            intro j; rw [s1]
            show (if j ∈ b then none else get (del c.send id) j) = _
            rw [hdels]
            by_cases e1 : j ∈ b <;> by_cases e2 : j = id <;> simp [e1, e2]
          refine ⟨?_, f2, Cut.session (fun i hi => h.subR id a b i hp hi)
            (fun i hi => h.subS id a b i hp hi) R S, ?_, ?_⟩
          · exact h.delSession hg hp l1 R S f2.ctl f2.enc f2.dec
          · show get _ id = none
            rw [r1]
            show (if id ∈ a then none else get (del c.recv id) id) = _
            rw [hdel]; simp
          · intro k' e e'; cases e; rw [hx] at e'; cases e'
        · rw [if_neg hks]
          refine ⟨?_, Frame.tables _ _ _,
          Cut.del true true (fun j => by show get (del c.recv id) j = _; rw [get_del]; simp)
            (fun j => by show get (del c.send id) j = _; rw [get_del]; simp), ?_, ?_⟩
          · refine h.delete (fun _ => rfl) id true true ?_ ?_ rfl rfl rfl ?_ ?_ (by simp)
            · intro j; show get (del c.recv id) j = _; rw [get_del]; simp
            · intro j; show get (del c.send id) j = _; rw [get_del]; simp
            · intro _; rw [hg]
              exact ⟨fun e => hks (by cases e; rfl), fun s e => hk s (by rw [hg]; exact e)⟩
            · intro _
              refine ⟨?_, ?_⟩
              · intro f e; have := h.pairS id f e; rw [hg] at this; cases this; exact hks rfl
              · intro s e; have := h.wtS id s k e hg; subst this; cases hx
          · show get (del c.recv id) id = none; rw [get_del]; simp
          · intro k' e e'; cases e; rw [hx] at e'; cases e'

/-- Removing a stream whose sending handler is not that of a session's stream. -/
theorem removeSend_spec {q : Bool} {c : C} (h : Inv q c) (id : Nat)
    (hk : ∀ s, get c.send id ≠ some (.wt s)) :
    Inv q (removeSend c id).1 ∧ Frame c (removeSend c id).1 ∧ Cut id c (removeSend c id).1 ∧
      get (removeSend c id).1.send id = none ∧
      ∀ k, get c.send id = some k → k.ext = false →
        (removeSend c id) = ({ c with send := del c.send id }, some k) := by
  unfold removeSend
  cases hg : get c.send id with
  | none => exact ⟨h, Frame.refl _, Cut.refl _ _, hg, by intro k hk; cases hk⟩
  | some k =>
    dsimp only
    cases hx : k.ext with
    | false =>
      simp only [Bool.false_eq_true, if_false]
      refine ⟨?_, Frame.send _ _,
        Cut.del false true (by simp) (fun j => by show get (del c.send id) j = _; rw [get_del]; simp),
        ?_, ?_⟩
      · refine h.delete (fun _ => rfl) id false true (by simp) ?_ rfl rfl rfl (by simp) ?_ (by simp)
        · intro j; show get (del c.send id) j = _; rw [get_del]; simp
        · intro _; rw [hg]
          refine ⟨?_, fun s e => hk s (by rw [hg]; exact e)⟩
          intro f e; cases e; cases hx
      · show get (del c.send id) id = none; rw [get_del]; simp
      · intro k' e _; cases e; rfl
    | true =>
      simp only [if_true]
      obtain ⟨r, hr1, hr2⟩ := h.ext id k hg hx
      rw [hr1]
      dsimp only
      have hdel : ∀ j, get (del c.recv id) j = if j = id then none else get c.recv j :=
        fun j => get_del ..
      have hdels : ∀ j, get (del c.send id) j = if j = id then none else get c.send j :=
        fun j => get_del ..
      by_cases hks : r = .session
      · subst hks
        rw [if_pos rfl]
        obtain ⟨⟨⟨a, b⟩, hp⟩, f, hf⟩ := h.pairR id hr1
        obtain ⟨f1, l1, r1, s1⟩ := removeExt_spec
          (c := { c with recv := del c.recv id, send := del c.send id }) (s := id) hp
          (by
            intro i hi; have := h.subR id a b i hp hi
            show get (del c.recv id) i = _
            rw [hdel, if_neg]; exact this
            rintro rfl; rw [hr1] at this; cases this)
          (by
            intro i hi; have := h.subS id a b i hp hi
            show get (del c.send id) i = _
            rw [hdels, if_neg]; exact this
            rintro rfl; rw [hf] at this; cases this)
        have f2 := (Frame.tables c (del c.recv id) (del c.send id)).trans f1
        have R : ∀ j, get (removeExt { c with recv := del c.recv id, send := del c.send id } id).recv j
            = if j = id ∨ j ∈ a then none else get c.recv j := by
          intro j; rw [r1]
          show (if j ∈ a then none else get (del c.recv id) j) = _
          rw [hdel]
          by_cases e1 : j ∈ a <;> by_cases e2 : j = id <;> simp [e1, e2]
        have S : ∀ j, get (removeExt { c with recv := del c.recv id, send := del c.send id } id).send j
            = if j = id ∨ j ∈ b then none else get c.send j := by
          intro j; rw [s1]
          show (if j ∈ b then none else get (del c.send id) j) = _
          rw [hdels]
          by_cases e1 : j ∈ b <;> by_cases e2 : j = id <;> simp [e1, e2]
        refine ⟨?_, f2, Cut.session (fun i hi => h.subR id a b i hp hi)
          (fun i hi => h.subS id a b i hp hi) R S, ?_, ?_⟩
        · exact h.delSession hr1 hp l1 R S f2.ctl f2.enc f2.dec
        · show get _ id = none
          rw [s1]
          show (if id ∈ b then none else get (del c.send id) id) = _
          rw [hdels]; simp
        · intro k' e e'; cases e; rw [hx] at e'; cases e'
      · rw [if_neg hks]
        refine ⟨?_, Frame.tables _ _ _,
          Cut.del true true (fun j => by show get (del c.recv id) j = _; rw [get_del]; simp)
            (fun j => by show get (del c.send id) j = _; rw [get_del]; simp), ?_, ?_⟩
        · refine h.delete (fun _ => rfl) id true true ?_ ?_ rfl rfl rfl ?_ ?_ (by simp)
          · intro j; show get (del c.recv id) j = _; rw [get_del]; simp
          · intro j; show get (del c.send id) j = _; rw [get_del]; simp
          · intro _; rw [hr1]
            refine ⟨fun e => hks (by cases e; rfl), ?_⟩
            intro s e; cases e; cases hr2
          · intro _
            refine ⟨?_, fun s e => hk s e⟩
            intro f e; have := h.pairS id f e; rw [hr1] at this; cases this; exact hks rfl
        · show get (del c.send id) id = none; rw [get_del]; simp
        · intro k' e e'; cases e; rw [hx] at e'; cases e'

end Neqo.H3c
