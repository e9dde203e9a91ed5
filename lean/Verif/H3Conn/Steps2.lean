import Verif.H3Conn.Steps

/-! Every step keeps the invariant, continued: sessions, GOAWAY, the application's calls. -/

namespace Neqo.H3c

/-- A new stream of a session. -/
theorem Inv.putWt {q : Bool} {c c' : C} (h : Inv q c) {id sid : Nat} (gr : get c.recv id = none)
    (gs : get c.send id = none) {a b : List Nat} (hsid : get c.recv sid = some .session)
    (hx : lists c sid = some (a, b)) (rf sf reg : Bool) (hq : q = true → reg = true)
    (hl : ∀ j, lists c' j = if j = sid ∧ reg = true then
      some (if rf then id :: a.filter (· != id) else a, if sf then id :: b.filter (· != id) else b)
      else lists c j)
    (hr : ∀ j, get c'.recv j = if j = id ∧ rf = true then some (.wt sid) else get c.recv j)
    (hs : ∀ j, get c'.send j = if j = id ∧ sf = true then some (.wt sid) else get c.send j)
    (h1 : c'.ctl = c.ctl) (h2 : c'.enc = c.enc) (h3 : c'.dec = c.dec) : Inv q c' := by
  have R : ∀ j k, get c'.recv j = some k →
      (j = id ∧ rf = true ∧ k = .wt sid) ∨ get c.recv j = some k := by
    intro j k e; rw [hr] at e; split at e
    · rename_i hh; cases e; exact Or.inl ⟨hh.1, hh.2, rfl⟩
    · exact Or.inr e
  have S : ∀ j k, get c'.send j = some k →
      (j = id ∧ sf = true ∧ k = .wt sid) ∨ get c.send j = some k := by
    intro j k e; rw [hs] at e; split at e
    · rename_i hh; cases e; exact Or.inl ⟨hh.1, hh.2, rfl⟩
    · exact Or.inr e
  have KR : ∀ j k, get c.recv j = some k → get c'.recv j = some k := by
    intro j k e; rw [hr, if_neg]; exact e
    rintro ⟨rfl, _⟩; rw [gr] at e; cases e
  have KS : ∀ j k, get c.send j = some k → get c'.send j = some k := by
    intro j k e; rw [hs, if_neg]; exact e
    rintro ⟨rfl, _⟩; rw [gs] at e; cases e
  have A : ∀ i, i ∈ (if rf = true then id :: a.filter (· != id) else a) →
      (i = id ∧ rf = true) ∨ i ∈ a := by
    intro i hi; split at hi
    · rename_i hh
      rcases List.mem_cons.mp hi with e | e
      · exact Or.inl ⟨e, hh⟩
      · exact Or.inr (List.mem_filter.mp e).1
    · exact Or.inr hi
  have B : ∀ i, i ∈ (if sf = true then id :: b.filter (· != id) else b) →
      (i = id ∧ sf = true) ∨ i ∈ b := by
    intro i hi; split at hi
    · rename_i hh
      rcases List.mem_cons.mp hi with e | e
      · exact Or.inl ⟨e, hh⟩
      · exact Or.inr (List.mem_filter.mp e).1
    · exact Or.inr hi
  have A' : ∀ i, i ∈ a → i ∈ (if rf = true then id :: a.filter (· != id) else a) := by
    intro i hi; split
    · by_cases e : i = id
      · rw [e]; exact List.mem_cons_self
      · exact List.mem_cons_of_mem _ (List.mem_filter.mpr ⟨hi, by simpa using e⟩)
    · exact hi
  have B' : ∀ i, i ∈ b → i ∈ (if sf = true then id :: b.filter (· != id) else b) := by
    intro i hi; split
    · by_cases e : i = id
      · rw [e]; exact List.mem_cons_self
      · exact List.mem_cons_of_mem _ (List.mem_filter.mpr ⟨hi, by simpa using e⟩)
    · exact hi
  have L : ∀ s x y, lists c' s = some (x, y) → ∃ x' y', lists c s = some (x', y') ∧
      (∀ i ∈ x, (i = id ∧ rf = true ∧ s = sid) ∨ i ∈ x') ∧
      (∀ i ∈ y, (i = id ∧ sf = true ∧ s = sid) ∨ i ∈ y') ∧ (s ≠ sid → x = x' ∧ y = y') := by
    intro s x y e
    rw [hl] at e; split at e
    · rename_i hh
      injection e with e; injection e with e1 e2
      obtain ⟨rfl, _⟩ := hh
      refine ⟨a, b, hx, ?_, ?_, fun n => absurd rfl n⟩
      · intro i hi; rw [← e1] at hi
        rcases A i hi with ⟨p, p'⟩ | p
        · exact Or.inl ⟨p, p', rfl⟩
        · exact Or.inr p
      · intro i hi; rw [← e2] at hi
        rcases B i hi with ⟨p, p'⟩ | p
        · exact Or.inl ⟨p, p', rfl⟩
        · exact Or.inr p
    · exact ⟨x, y, e, fun i hi => Or.inr hi, fun i hi => Or.inr hi, fun _ => ⟨rfl, rfl⟩⟩
  constructor
  · intro s x y i e hi
    obtain ⟨x', y', l1, l2, _⟩ := L s x y e
    rcases l2 i hi with ⟨p1, p2, p3⟩ | p
    · rw [hr, if_pos ⟨p1, p2⟩, p3]
    · exact KR _ _ (h.subR s x' y' i l1 p)
  · intro s x y i e hi
    obtain ⟨x', y', l1, _, l2, _⟩ := L s x y e
    rcases l2 i hi with ⟨p1, p2, p3⟩ | p
    · rw [hs, if_pos ⟨p1, p2⟩, p3]
    · exact KS _ _ (h.subS s x' y' i l1 p)
  · intro s x y e hn
    obtain ⟨x', y', l1, _, _, l2⟩ := L s x y e
    have hne : s ≠ sid := by rintro rfl; exact hn (KR _ _ hsid)
    obtain ⟨e1, e2⟩ := l2 hne
    rw [e1, e2]
    exact h.gone s x' y' l1 (fun x => hn (KR _ _ x))
  · intro i e
    rcases R _ _ e with ⟨_, _, e⟩ | e
    · cases e
    · obtain ⟨⟨p, hp⟩, f, hf⟩ := h.pairR i e
      refine ⟨?_, f, KS _ _ hf⟩
      rw [hl]; split
      · exact ⟨_, rfl⟩
      · exact ⟨p, hp⟩
  · intro i f e
    rcases S _ _ e with ⟨_, _, e⟩ | e
    · cases e
    · exact KR _ _ (h.pairS i f e)
  · intro i k e hx
    rcases S _ _ e with ⟨_, _, e⟩ | e
    · rw [e] at hx; cases hx
    · obtain ⟨r, r1, r2⟩ := h.ext i k e hx
      exact ⟨r, KR _ _ r1, r2⟩
  · intro i s k e e'
    rcases S _ _ e with ⟨rfl, _, e⟩ | e
    · cases e
      rcases R _ _ e' with ⟨_, _, e'⟩ | e'
      · exact e'
      · rw [gr] at e'; cases e'
    · rcases R _ _ e' with ⟨rfl, _, _⟩ | e'
      · rw [gs] at e; cases e
      · exact h.wtS i s k e e'
  · intro i s k e e'
    rcases R _ _ e with ⟨rfl, _, e⟩ | e
    · cases e
      rcases S _ _ e' with ⟨_, _, e'⟩ | e'
      · exact e'
      · rw [gs] at e'; cases e'
    · rcases S _ _ e' with ⟨rfl, _, _⟩ | e'
      · rw [gr] at e; cases e
      · exact h.wtR i s k e e'
  · intro i e
    rcases R _ _ e with ⟨_, _, e⟩ | e
    · cases e
    · rw [hs, if_neg]
      · exact h.head i e
      · rintro ⟨rfl, _⟩; rw [gr] at e; cases e
  · intro i k e hc
    rcases R _ _ e with ⟨_, _, rfl⟩ | e
    · cases hc
    · exact h.uni i k e hc
  · intro i j k e e' hc
    rcases R _ _ e with ⟨_, _, rfl⟩ | e
    · cases hc
    · rcases R _ _ e' with ⟨_, _, rfl⟩ | e'
      · cases hc
      · exact h.one i j k e e' hc
  · intro i hi; exact h.own i (by unfold sendCritical at hi ⊢; rw [h1, h2, h3] at hi; exact hi)
  · intro eq i s e
    have hreg := hq eq
    rcases R _ _ e with ⟨rfl, hrf, e⟩ | e
    · cases e
      refine ⟨_, _, by rw [hl, if_pos ⟨rfl, hreg⟩], ?_⟩
      rw [if_pos hrf]; exact List.mem_cons_self
    · obtain ⟨x, y, l1, l2⟩ := h.regR eq i s e
      by_cases hss : s = sid
      · subst hss
        rw [hx] at l1; cases l1
        exact ⟨_, _, by rw [hl, if_pos ⟨rfl, hreg⟩], A' i l2⟩
      · exact ⟨x, y, by rw [hl, if_neg (fun x => hss x.1)]; exact l1, l2⟩
  · intro eq i s e
    have hreg := hq eq
    rcases S _ _ e with ⟨rfl, hrf, e⟩ | e
    · cases e
      refine ⟨_, _, by rw [hl, if_pos ⟨rfl, hreg⟩], ?_⟩
      rw [if_pos hrf]; exact List.mem_cons_self
    · obtain ⟨x, y, l1, l2⟩ := h.regS eq i s e
      by_cases hss : s = sid
      · subst hss
        rw [hx] at l1; cases l1
        exact ⟨_, _, by rw [hl, if_pos ⟨rfl, hreg⟩], B' i l2⟩
      · exact ⟨x, y, by rw [hl, if_neg (fun x => hss x.1)]; exact l1, l2⟩

theorem addStream_spec (c : C) (sid : Nat) (s : Sess) (id : Nat) (hs : get c.sess sid = some s) :
    (addStream c sid s id).recv = c.recv ∧ (addStream c sid s id).send = c.send ∧
      Base c (addStream c sid s id) ∧
      ∀ j, lists (addStream c sid s id) j = if j = sid ∧ (!s.st.over) = true then
        some (if (!isUni id || !isOwn c.role id) then id :: s.recv.filter (· != id) else s.recv,
          if (!isUni id || isOwn c.role id) then id :: s.send.filter (· != id) else s.send)
        else lists c j := by
  unfold addStream
  by_cases ho : s.st.over = true
  · rw [if_pos ho]
    refine ⟨rfl, rfl, Base.refl _, ?_⟩
    intro j; rw [if_neg]; rintro ⟨_, e⟩; rw [ho] at e; cases e
  · rw [if_neg ho]
    have ho' : (!s.st.over) = true := by simpa using ho
    dsimp only
    have fin : ∀ (c1 : C) (y : Sess), Base c c1 → c1.recv = c.recv → c1.send = c.send →
        c1.sess = c.sess →
        y.recv = (if (!isUni id || !isOwn c.role id) then id :: s.recv.filter (· != id) else s.recv) →
        y.send = (if (!isUni id || isOwn c.role id) then id :: s.send.filter (· != id) else s.send) →
        (c1.setSess sid y).recv = c.recv ∧ (c1.setSess sid y).send = c.send ∧
        Base c (c1.setSess sid y) ∧
        ∀ j, lists (c1.setSess sid y) j = if j = sid ∧ (!s.st.over) = true then
        some (if (!isUni id || !isOwn c.role id) then id :: s.recv.filter (· != id) else s.recv,
          if (!isUni id || isOwn c.role id) then id :: s.send.filter (· != id) else s.send)
        else lists c j := by
      intro c1 y b e1 e2 e3 e4 e5
      refine ⟨e1, e2, b.trans (Frame.setSess ..).base, ?_⟩
      intro j
      rw [lists_setSess, e4, e5]
      by_cases hj : j = sid
      · rw [if_pos hj, if_pos (show j = sid ∧ (!s.st.over) = true from ⟨hj, ho'⟩)]
      · rw [if_neg hj, if_neg (show ¬(j = sid ∧ (!s.st.over) = true) from fun x => hj x.1)]
        unfold lists; rw [e3]
    by_cases hn : s.st = .negotiating
    · rw [if_pos (by split <;> split <;> exact hn)]
      refine fin c _ (Base.refl _) rfl rfl rfl ?_ ?_
      · split <;> split <;> rfl
      · split <;> split <;> rfl
    · rw [if_neg (by split <;> split <;> exact hn)]
      split
      · refine fin c _ (Base.refl _) rfl rfl rfl ?_ ?_
        · split <;> split <;> rfl
        · split <;> split <;> rfl
      · refine fin _ _ (Base.emit _ _) rfl rfl rfl ?_ ?_
        · split <;> split <;> rfl
        · split <;> split <;> rfl

theorem getSession_some {c : C} {sid : Nat} {s : Sess} (h : getSession c sid = some s) :
    get c.recv sid = some .session ∧ get c.sess sid = some s := by
  unfold getSession at h
  split at h
  · rename_i e; exact ⟨e, h⟩
  · cases h

theorem createStream_spec {q : Bool} {c : C} (h : Inv q c) {sid : Nat} {s : Sess} {id : Nat}
    (own : Bool) (gr : get c.recv id = none) (gs : get c.send id = none)
    (hs : getSession c sid = some s) (ho : isOwn c.role id = own)
    (hq : q = true → s.st.over = false) :
    Inv q (createStream c sid s id own).1 ∧ Base c (createStream c sid s id own).1 := by
  obtain ⟨g1, g2⟩ := getSession_some hs
  unfold createStream
  split
  · exact ⟨h, Base.refl _⟩
  · dsimp only
    obtain ⟨a1, a2, a3, a4⟩ := addStream_spec c sid s id g2
    generalize hc1 : addStream c sid s id = c1 at a1 a2 a3 a4 ⊢
    rw [ho] at a4
    have hx : lists c sid = some (s.recv, s.send) := lists_some g2
    have hq' : q = true → (!s.st.over) = true := fun e => by rw [hq e]; rfl
    have key : ∀ (sf rf : Bool) (c2 : C), (!isUni id || own) = sf → (!isUni id || !own) = rf →
        c2 = (let c := if sf = true then { c1 with send := put c1.send id (SK.wt sid) } else c1
              if rf = true then { c with recv := put c.recv id (RK.wt sid) } else c) →
        Inv q c2 ∧ Base c c2 := by
      intro sf rf c2 e1 e2 e3
      rw [e1, e2] at a4
      refine ⟨h.putWt gr gs g1 hx rf sf (!s.st.over) hq' ?_ ?_ ?_ ?_ ?_ ?_, ?_⟩
      · intro j; rw [← a4 j, e3]; dsimp only; unfold lists; split <;> split <;> rfl
      · intro j; rw [e3]; dsimp only
        cases rf <;> cases sf <;> simp [get_put, a1]
      · intro j; rw [e3]; dsimp only
        cases rf <;> cases sf <;> simp [get_put, a2]
      · rw [e3, ← a3.ctl]; dsimp only; split <;> split <;> rfl
      · rw [e3, ← a3.enc]; dsimp only; split <;> split <;> rfl
      · rw [e3, ← a3.dec]; dsimp only; split <;> split <;> rfl
      · refine a3.trans ?_
        rw [e3]; dsimp only
        split <;> split
        · exact (Frame.tables _ _ _).base
        · exact (Frame.recv _ _).base
        · exact (Frame.send _ _).base
        · exact Base.refl _
    exact key _ _ _ rfl rfl rfl

/-! ### GOAWAY -/

theorem drain_spec (c : C) : Base c (drain c) ∧ Still c (drain c) := by
  unfold drain
  generalize c.recv = l
  suffices H : ∀ (l : List (Nat × RK)) (c1 : C), Base c c1 ∧ Still c c1 →
      let c2 := l.foldl (fun c p => match p.2 with
        | .session =>
          match get c.sess p.1 with
          | some s =>
            if !s.udp && !s.draining then
              (c.setSess p.1 { s with draining := true }).emit (.draining p.1)
            else c
          | none => c
        | _ => c) c1
      Base c c2 ∧ Still c c2 from H l c ⟨Base.refl _, Still.refl _⟩
  intro l
  induction l with
  | nil => intro c1 h; exact h
  | cons p t ih =>
    intro c1 h
    refine ih _ ?_
    dsimp only
    split
    · split
      · rename_i s hs
        split
        · exact ⟨(h.1.trans (Frame.setSess ..).base).trans (Base.emit _ _),
            (h.2.trans (Still.setSess (y := { s with draining := true }) hs rfl rfl)).trans
              (Still.emit _ _)⟩
        · exact h
      · exact h
    · exact h

theorem handleStop_spec {q : Bool} {c : C} (h : Inv q c) (id code : Nat) :
    Inv q (handleStop c id code).1 ∧ Frame c (handleStop c id code).1 ∧
      Cut id c (handleStop c id code).1 ∧
      (sendCritical c id = false → get (handleStop c id code).1.send id = none) := by
  unfold handleStop
  split
  · rename_i hc
    exact ⟨h, Frame.refl _, Cut.refl _ _, fun e => by rw [hc] at e; cases e⟩
  · have := closeSend_spec h id (.remote code)
    exact ⟨this.1, this.2.1, this.2.2.1, fun _ => this.2.2.2⟩

theorem foldStop_spec {q : Bool} (code : Nat) (l : List Nat) : ∀ {c : C}, Inv q c →
    let c' := l.foldl (fun c id => (handleStop c id code).1) c
    Inv q c' ∧ Frame c c' := by
  induction l with
  | nil => intro c h; exact ⟨h, Frame.refl _⟩
  | cons a t ih =>
    intro c h
    obtain ⟨h1, h2, _⟩ := handleStop_spec h a code
    obtain ⟨h3, h4⟩ := ih h1
    exact ⟨h3, h2.trans h4⟩

theorem foldClose_spec {q : Bool} (ct : CT) (l : List Nat) : ∀ {c : C}, Inv q c →
    let c' := l.foldl (fun c id => (closeRecv c id ct).1) c
    Inv q c' ∧ Frame c c' := by
  induction l with
  | nil => intro c h; exact ⟨h, Frame.refl _⟩
  | cons a t ih =>
    intro c h
    obtain ⟨h1, h2, _⟩ := closeRecv_spec h a ct
    obtain ⟨h3, h4⟩ := ih h1
    exact ⟨h3, h2.trans h4⟩

theorem cutAbove_spec {q : Bool} {c : C} (h : Inv q c) (g : Nat) :
    Inv q (cutAbove c g) ∧ Frame c (cutAbove c g) := by
  unfold cutAbove
  dsimp only
  obtain ⟨h1, h2⟩ := foldStop_spec rejected ((c.send.map (·.1)).filter (idGte g)) h
  obtain ⟨h3, h4⟩ := foldClose_spec (.remote rejected)
    (((List.foldl (fun c id => (handleStop c id rejected).1) c
      ((c.send.map (·.1)).filter (idGte g))).recv.map (·.1)).filter (idGte g)) h1
  exact ⟨h3, h2.trans h4⟩

theorem Inv.setSt {q : Bool} {c : C} (h : Inv q c) (s : St) : Inv q { c with st := s } :=
  h.of_still ⟨rfl, rfl, fun _ => rfl⟩ rfl rfl rfl

theorem handleGoaway_inv {q : Bool} {c : C} (h : Inv q c) (g : Nat) :
    Inv q (handleGoaway c g).1 ∧ (handleGoaway c g).1.role = c.role ∧
      (handleGoaway c g).1.dead = c.dead := by
  have K : ∀ s : St, Inv q ((cutAbove (drain { c with st := s }) g).emit .goaway) ∧
      ((cutAbove (drain { c with st := s }) g).emit .goaway).role = c.role ∧
      ((cutAbove (drain { c with st := s }) g).emit .goaway).dead = c.dead := by
    intro s
    obtain ⟨d1, d2⟩ := drain_spec { c with st := s }
    obtain ⟨e1, e2⟩ := cutAbove_spec ((h.setSt s).of_base d2 d1) g
    exact ⟨e1.emit _, e2.role.trans d1.role, e2.dead.trans d1.dead⟩
  have K' : Inv q ((cutAbove c g).emit .goaway) ∧ ((cutAbove c g).emit .goaway).role = c.role ∧
      ((cutAbove c g).emit .goaway).dead = c.dead := by
    obtain ⟨e1, e2⟩ := cutAbove_spec h g
    exact ⟨e1.emit _, e2.role, e2.dead⟩
  unfold handleGoaway
  split
  · exact ⟨h, rfl, rfl⟩
  · split
    · exact K _
    · split
      · exact ⟨h, rfl, rfl⟩
      · exact K _
    · exact K'
    · exact K'
    · exact ⟨h, rfl, rfl⟩
    · exact ⟨h, rfl, rfl⟩

theorem clientFrames_inv {q : Bool} (l : List Fr) : ∀ {c : C}, Inv q c →
    Inv q (clientFrames c l).1 ∧ (clientFrames c l).1.role = c.role ∧
      (clientFrames c l).1.dead = c.dead := by
  induction l with
  | nil => intro c h; exact ⟨h, rfl, rfl⟩
  | cons f t ih =>
    intro c h
    unfold clientFrames
    split
    · exact ih h
    · exact ⟨h, rfl, rfl⟩
    · rename_i g
      have hg := handleGoaway_inv h g
      split
      · rename_i c1 e hq; rw [hq] at hg; exact hg
      · rename_i c1 hq; rw [hq] at hg
        obtain ⟨a1, a2, a3⟩ := ih hg.1
        exact ⟨a1, a2.trans hg.2.1, a3.trans hg.2.2⟩
    all_goals exact ⟨h, rfl, rfl⟩

theorem serverFrames_spec {q : Bool} (l : List Fr) : ∀ {c : C}, Inv q c →
    Inv q (serverFrames c l).1 ∧ Base c (serverFrames c l).1 ∧ Still c (serverFrames c l).1 := by
  induction l with
  | nil => intro c h; exact ⟨h, Base.refl _, Still.refl _⟩
  | cons f t ih =>
    intro c h
    unfold serverFrames
    split
    · exact ih h
    · exact ⟨h, Base.refl _, Still.refl _⟩
    · exact ⟨h, Base.refl _, Still.refl _⟩
    · rename_i id
      obtain ⟨a1, a2, a3⟩ := ih (h.emit (.prio id))
      exact ⟨a1, (Base.emit _ _).trans a2, (Still.emit _ _).trans a3⟩
    · rename_i id _
      split
      · exact ⟨h, Base.refl _, Still.refl _⟩
      · obtain ⟨a1, a2, a3⟩ := ih (h.emit (.prio id))
        exact ⟨a1, (Base.emit _ _).trans a2, (Still.emit _ _).trans a3⟩
    all_goals exact ⟨h, Base.refl _, Still.refl _⟩

/-! ### Events -/

/-- What is assumed of the streams and reads the transport gives: streams are new when they are
opened, the stream types are read on streams of the peer and fit them, own streams are own and never
given twice. With
`calm`, moreover, no stream of the peer names a session that is over but not gone yet. -/
def Fits (calm : Bool) (c : C) : Ev → Prop
  | .opened id => get c.recv id = none ∧ get c.send id = none
  | .readable id i => ∀ t, i.first = .newStream t →
      TypeFits id t = true ∧ isOwn c.role id = false ∧
      ∀ s x, t = .wt s → get c.sess s = some x → calm = true → x.st.over = false
  | .request _ (some i) _ | .createSession _ (some i) _ =>
      get c.recv i = none ∧ get c.send i = none ∧ isUni i = false ∧ .opened i ∉ c.log
  | .openStream _ (some i) =>
      get c.recv i = none ∧ get c.send i = none ∧ isOwn c.role i = true ∧ .opened i ∉ c.log
  | .state _ (some u) | .resume _ (some u) => isUni u = true
  | _ => True

theorem newPush_inv {q : Bool} {c : C} (h : Inv q c) {id : Nat} (gr : get c.recv id = none)
    (gs : get c.send id = none) (p : Nat) (i : In) :
    Inv q (newPush c id p i).1 ∧ (newPush c id p i).1.st = c.st ∧
      (newPush c id p i).1.role = c.role ∧ (newPush c id p i).1.dead = c.dead := by
  unfold newPush
  split
  · exact ⟨h, rfl, rfl, rfl⟩
  · exact ⟨h.emit _, rfl, rfl, rfl⟩
  · have hi := h.putRecv gr gs (.push p) ⟨nofun, nofun⟩ nofun
    have := readableBase_spec hi id i.second .pending i (by
      intro t _ e
      have e' : get (put c.recv id (RK.push p)) id = some .head := e
      rw [get_put, if_pos rfl] at e'; cases e')
    dsimp only at this
    unfold drop2
    split
    · rename_i c1 e hq; rw [hq] at this; exact ⟨this.1, this.2.1, this.2.2.1, this.2.2.2.1⟩
    · rename_i c1 e hq; rw [hq] at this; exact ⟨this.1, this.2.1, this.2.2.1, this.2.2.2.1⟩

theorem drop2_spec {q : Bool} {c : C} {x : C × Except Err Output}
    (h : Inv q x.1 ∧ x.1.st = c.st ∧ x.1.role = c.role ∧ x.1.dead = c.dead) :
    Inv q (drop2 x).1 ∧ (drop2 x).1.st = c.st ∧ (drop2 x).1.role = c.role ∧
      (drop2 x).1.dead = c.dead := by
  unfold drop2
  split <;> exact h

/-- A new request on a server. -/
theorem Inv.newHttp {q : Bool} {c : C} (h : Inv q c) {id : Nat} (gr : get c.recv id = none)
    (gs : get c.send id = none) (kr : RK) (ks : SK)
    (hk : (kr = .http ∧ ks = .http false) ∨ (kr = .connect ∧ ks = .connect false)) :
    Inv q { c with send := put c.send id ks, recv := put c.recv id kr } := by
  refine h.insert gr gs (some kr) (some ks) (fun _ => rfl) (fun j => get_put ..)
    (fun j => get_put ..) h.own ?_ ?_ ?_ ?_ ?_
  · rcases hk with ⟨rfl, rfl⟩ | ⟨rfl, rfl⟩ <;> exact ⟨nofun, nofun⟩
  · rcases hk with ⟨rfl, rfl⟩ | ⟨rfl, rfl⟩ <;> exact ⟨nofun, nofun⟩
  · rcases hk with ⟨rfl, rfl⟩ | ⟨rfl, rfl⟩
    · intro k e hx; cases e; cases hx
    · intro k e _; exact ⟨_, rfl, rfl⟩
  · rcases hk with ⟨rfl, rfl⟩ | ⟨rfl, rfl⟩ <;> nofun
  · rcases hk with ⟨rfl, rfl⟩ | ⟨rfl, rfl⟩ <;> (intro k e hc; cases e; cases hc)

theorem readable_inv {q : Bool} {c : C} (h : Inv q c) (id : Nat) (i : In)
    (hf : Fits q c (.readable id i)) :
    Inv q (readable c id i).1 ∧ (readable c id i).1.role = c.role ∧
      (readable c id i).1.dead = c.dead := by
  have hb := readableBase_spec h id i.first i.second i (fun t e _ => (hf t e).1)
  dsimp only at hb
  unfold readable
  split
  · rename_i c1 e hq; rw [hq] at hb; exact ⟨hb.1, hb.2.2.1, hb.2.2.2.1⟩
  · rename_i c1 p hq; rw [hq] at hb
    obtain ⟨a1, a2, a3, a4, a5⟩ := hb
    obtain ⟨b1, b2, _⟩ := a5 _ rfl
    split
    · obtain ⟨x1, x2, x3, x4⟩ := newPush_inv a1 b1 b2 p i
      exact ⟨x1, x3.trans a3, x4.trans a4⟩
    · exact ⟨a1, a3, a4⟩
  · rename_i c1 hq; rw [hq] at hb
    obtain ⟨a1, a2, a3, a4, a5⟩ := hb
    obtain ⟨b1, b2, _⟩ := a5 _ rfl
    split
    · exact ⟨a1, a3, a4⟩
    · dsimp only at a1 b1 b2
      have hi := a1.newHttp b1 b2 .http (.http false) (Or.inl ⟨rfl, rfl⟩)
      obtain ⟨x1, x2, x3, x4, _⟩ := readableBase_spec hi id i.second .pending i (by
        intro t _ e
        have e' : get (put c1.recv id RK.http) id = some .head := e
        rw [get_put, if_pos rfl] at e'; cases e')
      obtain ⟨y1, _, y3, y4⟩ := drop2_spec (c := c1) ⟨x1, x2, x3, x4⟩
      exact ⟨y1, y3.trans a3, y4.trans a4⟩
  · rename_i c1 s hq; rw [hq] at hb
    obtain ⟨a1, a2, a3, a4, a5⟩ := hb
    obtain ⟨b1, b2, b3, _, b5⟩ := a5 _ rfl
    obtain ⟨_, f2, f3⟩ := hf _ b3
    dsimp only at a1 a3 b1 b2 b5
    have hcr : Inv q (createRemote c1 s id).1 ∧ Base c1 (createRemote c1 s id).1 := by
      unfold createRemote
      split
      · exact ⟨a1, Base.refl _⟩
      · rename_i x hx
        refine createStream_spec a1 false b1 b2 hx (by rw [a3]; exact f2) ?_
        intro e
        refine f3 s x rfl ?_ e
        rw [← b5]; exact (getSession_some hx).2
    split
    · rename_i c2 e hq2; rw [hq2] at hcr
      exact ⟨hcr.1, hcr.2.role.trans a3, hcr.2.dead.trans a4⟩
    · rename_i c2 hq2; rw [hq2] at hcr
      dsimp only at hcr
      have hnh : get c2.recv id ≠ some .head := by
        unfold createRemote at hq2
        split at hq2
        · cases hq2
        · rename_i x hx
          unfold createStream at hq2
          split at hq2
          · cases hq2
          · have g2 := (getSession_some hx).2
            obtain ⟨z1, z2, _, _⟩ := addStream_spec c1 s x id g2
            injection hq2 with hq2 _
            rw [← hq2]
            intro e
            split at e
            · have e' : get (put _ id (RK.wt s)) id = some .head := e
              rw [get_put, if_pos rfl] at e'; cases e'
            · split at e
              · have e' : get (addStream c1 s x id).recv id = some .head := e
                rw [z1, b1] at e'; cases e'
              · rw [z1, b1] at e; cases e
      obtain ⟨x1, x2, x3, x4, _⟩ := readableBase_spec hcr.1 id i.second .pending i (by
        intro t _ e; exact absurd e hnh)
      obtain ⟨y1, _, y3, y4⟩ := drop2_spec (c := c2) ⟨x1, x2, x3, x4⟩
      exact ⟨y1, y3.trans (hcr.2.role.trans a3), y4.trans (hcr.2.dead.trans a4)⟩
  · rename_i c1 fs hq; rw [hq] at hb
    obtain ⟨a1, a2, a3, a4, a5⟩ := hb
    split
    · obtain ⟨x1, x2, x3⟩ := clientFrames_inv fs a1
      exact ⟨x1, x2.trans a3, x3.trans a4⟩
    · obtain ⟨x1, x2, _⟩ := serverFrames_spec fs a1
      exact ⟨x1, x2.role.trans a3, x2.dead.trans a4⟩
  · rename_i c1 o _ _ _ _ hq; rw [hq] at hb
    exact ⟨hb.1, hb.2.2.1, hb.2.2.2.1⟩

/-- The invariant of a connection without streams. -/
theorem Inv.empty {q : Bool} {c : C} (own : ∀ i, sendCritical c i = true → isUni i = true)
    (hr : c.recv = []) (hs : c.send = []) (hx : c.sess = []) : Inv q c := by
  have R : ∀ j, get c.recv j = none := by intro j; rw [hr]; rfl
  have S : ∀ j, get c.send j = none := by intro j; rw [hs]; rfl
  have L : ∀ j, lists c j = none := by intro j; unfold lists; rw [hx]; rfl
  constructor
  all_goals (intros; first | (exact own _ (by assumption)) | simp_all)

theorem closeWith_inv {q : Bool} {c : C} (h : Inv q c) (code : Nat) : Inv q (closeWith c code) := by
  have E : Inv q ((({ c with st := .closing (.app code), send := [], recv := [], sess := [] } : C).emit
      (.closeConn code)).emit (.state (.closing (.app code)))) :=
    Inv.empty (fun i hi => h.own i hi) rfl rfl rfl
  unfold closeWith
  split
  · split
    · exact h
    · exact E
  · exact E

theorem Inv.setDead {q : Bool} {c : C} (h : Inv q c) : Inv q { c with dead := true } :=
  h.of_still ⟨rfl, rfl, fun _ => rfl⟩ rfl rfl rfl

theorem failWith_inv {q : Bool} {c : C} (h : Inv q c) (e : Err) : Inv q (failWith c e) := by
  unfold failWith
  split
  · exact h.setDead
  · exact closeWith_inv h _
  · exact closeWith_inv h _

theorem settle_inv {q : Bool} {x : C × Option Err} (h : Inv q x.1) : Inv q (settle x) := by
  unfold settle
  split
  · exact h
  · exact failWith_inv h _

theorem keep_inv {q : Bool} {x : C × Option Err} (h : Inv q x.1) : Inv q (keep x) := by
  unfold keep
  split
  · exact h.setDead
  · exact h

theorem keepId_inv {q : Bool} {x : C × Except Err Nat} (h : Inv q x.1) : Inv q (keepId x) := by
  unfold keepId
  split
  · exact h
  · exact h.setDead
  · split
    · exact closeWith_inv h _
    · exact h

theorem openOwn_inv {q : Bool} {c : C} (h : Inv q c) (uni : Option Nat)
    (hu : ∀ u, uni = some u → isUni u = true) : Inv q (openOwn c uni).1 := by
  unfold openOwn
  split
  · exact h
  · rename_i u
    have e := hu u rfl
    refine { subR := h.subR, subS := h.subS, gone := h.gone, pairR := h.pairR, pairS := h.pairS,
             ext := h.ext, wtS := h.wtS, wtR := h.wtR, head := h.head, uni := h.uni, one := h.one,
             regR := h.regR, regS := h.regS, own := ?_ }
    intro i hi
    have hi' : i = u ∨ i = u + 4 ∨ i = u + 8 := by
      unfold sendCritical at hi
      simp only [Bool.or_eq_true, beq_iff_eq, Option.some.injEq] at hi
      omega
    unfold isUni at e ⊢
    simp only [beq_iff_eq] at e ⊢
    rcases hi' with rfl | rfl | rfl <;> omega

theorem stateChange_inv {q : Bool} {c : C} (h : Inv q c) (t : TSt) (uni : Option Nat)
    (hu : ∀ u, uni = some u → isUni u = true) : Inv q (stateChange c t uni).1 := by
  unfold stateChange
  split
  · split
    · have := openOwn_inv (h.setSt .zeroRtt) uni hu
      split
      · rename_i c1 e hq; rw [hq] at this; exact this
      · rename_i c1 hq; rw [hq] at this; exact this
    · exact h
  · split
    · have := openOwn_inv h uni hu
      split
      · rename_i c1 e hq; rw [hq] at this; exact this
      · rename_i c1 hq; rw [hq] at this; exact this.setSt _
    · exact h.setSt _
    · exact h
  · split
    · exact h
    · exact h.setSt _
  · split
    · exact h
    · exact h.setSt _
  · exact h

theorem stateStep_inv {q : Bool} {c : C} (h : Inv q c) (t : TSt) (uni : Option Nat)
    (hu : ∀ u, uni = some u → isUni u = true) : Inv q (stateStep c t uni) := by
  have := stateChange_inv h t uni hu
  unfold stateStep
  split
  · rename_i c1 e hq; rw [hq] at this; exact failWith_inv this _
  · rename_i c1 hq; rw [hq] at this; exact this.emit _
  · rename_i c1 hq; rw [hq] at this; exact this

theorem rejectZeroRtt_inv {q : Bool} {c : C} (h : Inv q c) : Inv q (rejectZeroRtt c).1 := by
  unfold rejectZeroRtt
  split
  · exact h
  · split
    · refine Inv.empty ?_ rfl rfl rfl
      intro i hi
      exact absurd hi (by unfold sendCritical C.emit; simp)
    · exact h

theorem dropWtSend {q : Bool} {c : C} (h : Inv q c) {id s : Nat} (hk : get c.send id = some (.wt s)) :
    Inv q (removeSend (dropSubSend c s id) id).1 ∧ Frame c (removeSend (dropSubSend c s id) id).1 ∧
      (removeSend (dropSubSend c s id) id).1.recv = c.recv := by
  obtain ⟨t1, t2⟩ := dropSubSend_tables c s id
  have e : removeSend (dropSubSend c s id) id =
      ({ dropSubSend c s id with send := del (dropSubSend c s id).send id }, some (.wt s)) := by
    unfold removeSend
    rw [t2, hk]
    rfl
  rw [e]
  have f := (dropSubSend_frame c s id).trans (Frame.send _ (del (dropSubSend c s id).send id))
  refine ⟨h.delWtS hk (c' := { dropSubSend c s id with send := del (dropSubSend c s id).send id })
    ?_ ?_ t1 f.ctl f.enc f.dec, f, t1⟩
  · intro j; exact dropSubSend_lists c s id j
  · intro j
    show get (del (dropSubSend c s id).send id) j = _
    rw [get_del, t2]

theorem setDone_inv {q : Bool} {c : C} (h : Inv q c) {id : Nat} {s : Sess} (st : SSt)
    (hs : get c.sess id = some s) : Inv q (c.setSess id { s with st := st }) :=
  h.of_still (Still.setSess hs rfl rfl) rfl rfl rfl

theorem sendOne_inv {q : Bool} {c : C} (h : Inv q c) (id : Nat) (o : Sent) :
    Inv q (sendOne c id o).1 := by
  unfold sendOne
  split
  · exact h
  · rename_i k hk
    split
    · exact h
    · split
      · dsimp only
        split
        · exact (removeSend_spec h id (by intro s e; rw [hk] at e; cases e)).1
        · exact h
      · exact h
    · split
      · dsimp only
        split
        · exact (removeSend_spec h id (by intro s e; rw [hk] at e; cases e)).1
        · exact h
      · dsimp only
        split
        · exact (removeSend_spec h id (by intro s e; rw [hk] at e; cases e)).1
        · exact h
      · exact (dropWtSend h hk).1
      · split
        · exact h
        · rename_i s hs
          split
          · exact (removeSend_spec (setDone_inv h .done hs) id
              (by intro s e; have e' : get c.send id = _ := e; rw [hk] at e'; cases e')).1
          · dsimp only
            split
            · exact (removeSend_spec h id (by intro s e; rw [hk] at e; cases e)).1
            · exact h

/-- The end of the sending half has been asked for. -/
theorem Inv.retag {q : Bool} {c : C} (h : Inv q c) {id : Nat} {k k' : SK}
    (hg : get c.send id = some k)
    (hk : (∃ f, k = .http f ∧ k' = .http true) ∨ (∃ f, k = .connect f ∧ k' = .connect true) ∨
      ∃ f, k = .session f ∧ k' = .session true) :
    Inv q { c with send := put c.send id k' } := by
  have G : ∀ j, get ({ c with send := put c.send id k' } : C).send j =
      if j = id then some k' else get c.send j := fun j => get_put ..
  have nw : ∀ s, k ≠ .wt s := by
    rintro s rfl; rcases hk with ⟨_, e, _⟩ | ⟨_, e, _⟩ | ⟨_, e, _⟩ <;> cases e
  have nw' : ∀ s, k' ≠ .wt s := by
    rintro s rfl; rcases hk with ⟨_, _, e⟩ | ⟨_, _, e⟩ | ⟨_, _, e⟩ <;> cases e
  have S : ∀ j x, get ({ c with send := put c.send id k' } : C).send j = some x →
      (j = id ∧ x = k') ∨ get c.send j = some x := by
    intro j x e; rw [G] at e; split at e
    · cases e; exact Or.inl ⟨by assumption, rfl⟩
    · exact Or.inr e
  have W : ∀ j s, get c.send j = some (.wt s) →
      get ({ c with send := put c.send id k' } : C).send j = some (.wt s) := by
    intro j s e; rw [G, if_neg]; exact e
    rintro rfl; rw [hg] at e; cases e; exact nw s rfl
  refine { subR := h.subR, gone := h.gone, uni := h.uni, one := h.one, own := h.own,
           regR := h.regR, subS := ?_, pairR := ?_, pairS := ?_, ext := ?_, wtS := ?_, wtR := ?_,
           head := ?_, regS := ?_ }
  · intro s a b i e hi; exact W _ _ (h.subS s a b i e hi)
  · intro i e
    obtain ⟨p, f, hf⟩ := h.pairR i e
    refine ⟨p, ?_⟩
    rw [G]; split
    · rename_i ei; subst ei
      rw [hg] at hf; cases hf
      rcases hk with ⟨_, e, _⟩ | ⟨_, e, _⟩ | ⟨_, e, e'⟩
      · cases e
      · cases e
      · exact ⟨_, by rw [e']⟩
    · exact ⟨f, hf⟩
  · intro i f e
    rcases S _ _ e with ⟨rfl, e2⟩ | e
    · rcases hk with ⟨_, _, e'⟩ | ⟨_, _, e'⟩ | ⟨f', e1, e'⟩
      · rw [e'] at e2; cases e2
      · rw [e'] at e2; cases e2
      · subst e1; exact h.pairS i f' hg
    · exact h.pairS i f e
  · intro i x e hx
    rcases S _ _ e with ⟨rfl, e0⟩ | e
    · refine h.ext i k hg ?_
      subst e0
      rcases hk with ⟨_, e1, e2⟩ | ⟨_, e1, e2⟩ | ⟨_, e1, e2⟩
      · rw [e2] at hx; cases hx
      · rw [e1]; rfl
      · rw [e1]; rfl
    · exact h.ext i x e hx
  · intro i s x e e'
    rcases S _ _ e with ⟨_, e⟩ | e
    · exact absurd e.symm (nw' s)
    · exact h.wtS i s x e e'
  · intro i s x e e'
    rcases S _ _ e' with ⟨rfl, _⟩ | e'
    · exact absurd (h.wtR i s k e hg) (nw s)
    · exact h.wtR i s x e e'
  · intro i e
    have := h.head i e
    rw [G, if_neg]; exact this
    rintro rfl; rw [hg] at this; cases this
  · intro eq i s e
    rcases S _ _ e with ⟨_, e⟩ | e
    · exact absurd e.symm (nw' s)
    · exact h.regS eq i s e

theorem finish_inv {q : Bool} {c : C} (h : Inv q c) {id : Nat} {k : SK} (hk : get c.send id = some k)
    (now : Bool) : Inv q (finish c id k now) := by
  unfold finish
  split
  · split
    · exact (removeSend_spec h id (by intro s e; rw [hk] at e; cases e)).1
    · exact h.retag hk (Or.inl ⟨_, rfl, rfl⟩)
  · split
    · exact (removeSend_spec h id (by intro s e; rw [hk] at e; cases e)).1
    · exact h.retag hk (Or.inr (Or.inl ⟨_, rfl, rfl⟩))
  · split
    · exact (dropWtSend h hk).1
    · exact h
  · split
    · exact h
    · rename_i s hs
      split
      · exact (removeSend_spec (setDone_inv h .done hs) id
          (by intro s e; have e' : get c.send id = _ := e; rw [hk] at e'; cases e')).1
      · exact (setDone_inv h .finPending hs).retag hk (Or.inr (Or.inr ⟨_, rfl, rfl⟩))

/-- A stream becomes a session: a new one, or a request that is accepted. -/
theorem Inv.toSession {q : Bool} {c : C} (h : Inv q c) {id : Nat} (x : Sess) (xr : x.recv = [])
    (xs : x.send = [])
    (hn : (get c.recv id = none ∧ get c.send id = none) ∨
      (get c.recv id = some .connect ∧ ∃ k, get c.send id = some k)) :
    Inv q { c.setSess id x with send := put c.send id (.session false),
                                recv := put c.recv id .session } := by
  have nS : get c.recv id ≠ some .session := by
    rcases hn with ⟨e, _⟩ | ⟨e, _⟩ <;> rw [e] <;> nofun
  have nW : ∀ s, get c.recv id ≠ some (.wt s) := by
    intro s; rcases hn with ⟨e, _⟩ | ⟨e, _⟩ <;> rw [e] <;> nofun
  have nC : ∀ k, get c.recv id = some k → k.critical = false := by
    intro k hk; rcases hn with ⟨e, _⟩ | ⟨e, _⟩
    · rw [e] at hk; cases hk
    · rw [e] at hk; cases hk; rfl
  have nWS : ∀ s, get c.send id ≠ some (.wt s) := by
    intro s e
    rcases hn with ⟨_, e'⟩ | ⟨e', _⟩
    · rw [e'] at e; cases e
    · have := h.wtS id s _ e e'; cases this
  have nL : ∀ a b, lists c id = some (a, b) → a = [] ∧ b = [] := fun a b e => h.gone id a b e nS
  generalize hc' : ({ c.setSess id x with
    send := put c.send id (.session false), recv := put c.recv id .session } : C) = c'
  have R : ∀ j, get c'.recv j = if j = id then some .session else get c.recv j := by
    intro j; rw [← hc']; exact get_put ..
  have S : ∀ j, get c'.send j = if j = id then some (.session false) else get c.send j := by
    intro j; rw [← hc']; exact get_put ..
  have L : ∀ j, lists c' j = if j = id then some ([], []) else lists c j := by
    intro j
    have := lists_setSess c id x j
    rw [xr, xs] at this; rw [← this, ← hc']; rfl
  have R' : ∀ j k, get c'.recv j = some k → (j = id ∧ k = .session) ∨ get c.recv j = some k := by
    intro j k e; rw [R] at e; split at e
    · cases e; exact Or.inl ⟨by assumption, rfl⟩
    · exact Or.inr e
  have S' : ∀ j k, get c'.send j = some k → (j = id ∧ k = .session false) ∨ get c.send j = some k := by
    intro j k e; rw [S] at e; split at e
    · cases e; exact Or.inl ⟨by assumption, rfl⟩
    · exact Or.inr e
  have L' : ∀ s a b i, lists c' s = some (a, b) → i ∈ a ∨ i ∈ b → s ≠ id ∧ lists c s = some (a, b) := by
    intro s a b i e hi; rw [L] at e; split at e
    · cases e; rcases hi with hi | hi <;> cases hi
    · exact ⟨by assumption, e⟩
  constructor
  · intro s a b i e hi
    obtain ⟨_, e'⟩ := L' s a b i e (Or.inl hi)
    have := h.subR s a b i e' hi
    rw [R, if_neg]; exact this
    rintro rfl; exact nW s this
  · intro s a b i e hi
    obtain ⟨_, e'⟩ := L' s a b i e (Or.inr hi)
    have := h.subS s a b i e' hi
    rw [S, if_neg]; exact this
    rintro rfl; exact nWS s this
  · intro s a b e hx
    rw [L] at e; split at e
    · cases e; exact ⟨rfl, rfl⟩
    · rename_i hne
      refine h.gone s a b e ?_
      rw [R, if_neg hne] at hx; exact hx
  · intro i e
    rcases R' _ _ e with ⟨rfl, _⟩ | e
    · exact ⟨⟨_, by rw [L, if_pos rfl]⟩, false, by rw [S, if_pos rfl]⟩
    · have hne : i ≠ id := by rintro rfl; exact nS e
      obtain ⟨p, f, hf⟩ := h.pairR i e
      exact ⟨by rw [L, if_neg hne]; exact p, f, by rw [S, if_neg hne]; exact hf⟩
  · intro i f e
    rcases S' _ _ e with ⟨rfl, _⟩ | e
    · rw [R, if_pos rfl]
    · have := h.pairS i f e
      rw [R]; split
      · rfl
      · exact this
  · intro i k e hx
    rw [R]; split
    · exact ⟨_, rfl, rfl⟩
    · rename_i hne
      rw [S, if_neg hne] at e
      exact h.ext i k e hx
  · intro i s k e e'
    rcases S' _ _ e with ⟨_, e⟩ | e
    · cases e
    · rcases R' _ _ e' with ⟨rfl, _⟩ | e'
      · exact absurd e (nWS s)
      · exact h.wtS i s k e e'
  · intro i s k e e'
    rcases R' _ _ e with ⟨_, e⟩ | e
    · cases e
    · rcases S' _ _ e' with ⟨rfl, _⟩ | e'
      · exact absurd e (nW s)
      · exact h.wtR i s k e e'
  · intro i e
    rcases R' _ _ e with ⟨_, e⟩ | e
    · cases e
    · have := h.head i e
      rw [S, if_neg]; exact this
      rintro rfl
      rcases hn with ⟨e', _⟩ | ⟨e', _⟩ <;> rw [e'] at e <;> cases e
  · intro i k e hc
    rcases R' _ _ e with ⟨_, rfl⟩ | e
    · cases hc
    · exact h.uni i k e hc
  · intro i j k e e' hc
    rcases R' _ _ e with ⟨_, rfl⟩ | e
    · cases hc
    · rcases R' _ _ e' with ⟨_, rfl⟩ | e'
      · cases hc
      · exact h.one i j k e e' hc
  · intro i hi; rw [← hc'] at hi; exact h.own i hi
  · intro eq i s e
    rcases R' _ _ e with ⟨_, e⟩ | e
    · cases e
    · obtain ⟨a, b, l1, l2⟩ := h.regR eq i s e
      have hne : s ≠ id := by
        rintro rfl; obtain ⟨rfl, _⟩ := nL a b l1; cases l2
      exact ⟨a, b, by rw [L, if_neg hne]; exact l1, l2⟩
  · intro eq i s e
    rcases S' _ _ e with ⟨_, e⟩ | e
    · cases e
    · obtain ⟨a, b, l1, l2⟩ := h.regS eq i s e
      have hne : s ≠ id := by
        rintro rfl; obtain ⟨_, rfl⟩ := nL a b l1; cases l2
      exact ⟨a, b, by rw [L, if_neg hne]; exact l1, l2⟩

theorem resetSend_inv {q : Bool} {c : C} (h : Inv q c) (id code : Nat) :
    Inv q (resetSend c id code).1 := by
  unfold resetSend
  split
  · exact h
  · exact (closeSend_spec h id _).1.emit _

theorem stopRecv_inv {q : Bool} {c : C} (h : Inv q c) (id code : Nat) :
    Inv q (stopRecv c id code).1 := by
  unfold stopRecv
  split
  · exact h
  · have := closeRecv_spec h id (.app code)
    split
    · rename_i c1 e hq; rw [hq] at this; exact this.1
    · rename_i c1 hq; rw [hq] at this; exact this.1.emit _

theorem cancelFetch_inv {q : Bool} {c : C} (h : Inv q c) (id code : Nat) :
    Inv q (cancelFetch c id code).1 := by
  unfold cancelFetch
  split
  · exact h
  · split
    · exact h
    · exact resetSend_inv h _ _
  · split
    · exact stopRecv_inv h _ _
    · exact stopRecv_inv h _ _
    · exact stopRecv_inv h _ _
    · exact stopRecv_inv h _ _
    · exact h
  · split
    · exact h
    · split
      · exact stopRecv_inv (resetSend_inv h _ _) _ _
      · exact h

theorem closeSending_inv {q : Bool} {c : C} (h : Inv q c) (id : Nat) (now : Bool) :
    Inv q (closeSending c id now).1 := by
  unfold closeSending
  split
  · split
    · exact h
    · rename_i k hk; exact finish_inv h hk now
  · exact h

theorem endSession_inv {q : Bool} {c : C} (h : Inv q c) (id : Nat) (udp now : Bool) :
    Inv q (endSession c id udp now).1 := by
  unfold endSession
  split
  · exact h
  · split
    · exact h
    · split
      · rename_i k hk
        split
        · exact finish_inv h hk now
        · exact h
      · exact h

theorem openBidi_spec (c : C) (id : Option Nat) :
    ((openBidi c id).1 = c ∧ ∃ e, (openBidi c id).2 = .error e) ∨
      ∃ i, id = some i ∧ openBidi c id = (c.emit (.opened i), .ok i) ∧
        (c.st = .zeroRtt ∨ c.st = .connected) := by
  unfold openBidi
  split
  · exact Or.inl ⟨rfl, _, rfl⟩
  · exact Or.inl ⟨rfl, _, rfl⟩
  · exact Or.inl ⟨rfl, _, rfl⟩
  · exact Or.inl ⟨rfl, _, rfl⟩
  · rename_i h1 h2 h3 h4
    split
    · exact Or.inl ⟨rfl, _, rfl⟩
    · rename_i i
      refine Or.inr ⟨i, rfl, rfl, ?_⟩
      cases hs : c.st with
      | initializing => exact absurd hs h4
      | zeroRtt => exact Or.inl rfl
      | connected => exact Or.inr rfl
      | goingAway g => exact absurd hs (h1 g)
      | closing r => exact absurd hs (h2 r)
      | closed r => exact absurd hs (h3 r)

theorem request_inv {q : Bool} {c : C} (h : Inv q c) (w : Req) (id : Option Nat) (bad : Option Err)
    (hf : Fits q c (.request w id bad)) : Inv q (request c w id bad).1 := by
  unfold request
  rcases openBidi_spec c id with ⟨e1, e, e2⟩ | ⟨i, rfl, e, _⟩
  · split
    · rename_i c1 x hq; rw [hq] at e1; dsimp only at e1; rw [e1]; exact h
    · rename_i c1 x hq; rw [hq] at e2; cases e2
  · rw [e]
    dsimp only
    obtain ⟨f1, f2, _⟩ := hf
    split
    · exact h.emit _
    · split
      · exact (h.emit (.opened i)).newHttp f1 f2 .http (.http false) (Or.inl ⟨rfl, rfl⟩)
      · exact (h.emit (.opened i)).newHttp f1 f2 .connect (.connect false) (Or.inr ⟨rfl, rfl⟩)

theorem createSession_inv {q : Bool} {c : C} (h : Inv q c) (udp : Bool) (id : Option Nat)
    (bad : Option Err) (hf : Fits q c (.createSession udp id bad)) :
    Inv q (createSession c udp id bad).1 := by
  unfold createSession
  by_cases hn : (if udp then c.udpF else c.wtF) ≠ .negotiated
  · rw [if_pos hn]; exact h
  · rw [if_neg hn]
    rcases openBidi_spec c id with ⟨e1, e, e2⟩ | ⟨i, rfl, e, _⟩
    · split
      · rename_i c1 x hq; rw [hq] at e1; dsimp only at e1; rw [e1]; exact h
      · rename_i c1 x hq; rw [hq] at e2; cases e2
    · rw [e]
      dsimp only
      obtain ⟨f1, f2, _⟩ := hf
      have := (h.emit (.opened i)).toSession (id := i) ⟨udp, .negotiating, false, [], [], []⟩ rfl rfl
        (Or.inl ⟨f1, f2⟩)
      split <;> exact this

theorem openStream_inv {q : Bool} {c : C} (h : Inv q c) (sid : Nat) (id : Option Nat)
    (hf : Fits q c (.openStream sid id)) : Inv q (openStream c sid id).1 := by
  unfold openStream
  split
  · exact h
  · rename_i s hs
    split
    · rename_i ha
      split
      · exact h
      · rename_i i
        obtain ⟨f1, f2, f3, _⟩ := hf
        have := createStream_spec (h.emit (.opened i)) (sid := sid) (s := s) (id := i) true f1 f2 hs f3
          (fun _ => by rw [ha]; rfl)
        split
        · rename_i c1 e hq; rw [hq] at this; exact this.1
        · rename_i c1 hq; rw [hq] at this; exact this.1
    · exact h

theorem answer_inv {q : Bool} {c : C} (h : Inv q c) (id : Nat) (a : Answer) :
    Inv q (answer c id a).1 := by
  unfold answer
  split
  · exact h
  · exact cancelFetch_inv h _ _
  · split
    · exact cancelFetch_inv h _ _
    · exact h
  · rename_i s r hs hr
    split
    · exact h
    · rename_i hrc
      split
      · exact closeSending_inv h _ _
      · exact cancelFetch_inv h _ _
      · rename_i udp
        have hrc' : r = .connect := by
          by_cases e : r = .connect
          · exact e
          · exact absurd e hrc
        subst hrc'
        exact h.toSession (id := id) ⟨udp, .active, false, [], [], []⟩ rfl rfl
          (Or.inr ⟨hr, s, hs⟩)
      · have := cancelFetch_inv h id rejected
        split
        · rename_i c1 e hq; rw [hq] at this; exact this
        · rename_i c1 hq; rw [hq] at this; exact this

theorem readData_inv {q : Bool} {c : C} (h : Inv q c) (id : Nat) (r : Read) :
    Inv q (readData c id r).1 := by
  unfold readData
  split
  · exact h
  · rename_i k hk
    dsimp only
    have fin : ∀ x : C × Except Err Output, Inv q x.1 →
        Inv q (match x with
          | (c, .ok _) => (c, none)
          | (c, .error e) => (if e.isConnection then closeWith c e.code else c, some e) :
            C × Option Err).1 := by
      intro x hx
      split
      · exact hx
      · dsimp only
        split
        · exact closeWith_inv hx _
        · exact hx
    refine fin _ ?_
    by_cases hw : ∃ s, k = .wt s
    · obtain ⟨s, rfl⟩ := hw
      cases r with
      | ended =>
        dsimp only [endWt]
        obtain ⟨t1, t2⟩ := dropSubRecv_tables c s id
        have e : removeRecv (dropSubRecv c s id) id =
            ({ dropSubRecv c s id with recv := del (dropSubRecv c s id).recv id }, some (.wt s)) := by
          unfold removeRecv
          rw [t1, hk]
          rfl
        unfold afterRead
        dsimp only
        rw [e]
        have f := (dropSubRecv_frame c s id).trans (Frame.recv _ (del (dropSubRecv c s id).recv id))
        refine h.delWtR hk
          (c' := { dropSubRecv c s id with recv := del (dropSubRecv c s id).recv id })
          ?_ ?_ t2 f.ctl f.enc f.dec
        · intro j; exact dropSubRecv_lists c s id j
        · intro j
          show get (del (dropSubRecv c s id).recv id) j = _
          rw [get_del, t1]
      | fail e => exact (afterRead_spec h _ (Or.inr ⟨e, Or.inl rfl⟩)).1
      | _ => exact (afterRead_spec h _ (Or.inr ⟨.panic, Or.inr ⟨_, rfl⟩⟩)).1
    · have hw' : ∀ s, k ≠ .wt s := fun s e => hw ⟨s, e⟩
      have e : endWt c id k r = c := by
        unfold endWt
        split
        · exact absurd rfl (hw' _)
        · rfl
      rw [e]
      refine (afterRead_spec h _ (Or.inl ?_)).1
      intro s e'; rw [hk] at e'; cases e'; exact hw' s rfl

theorem resume_inv {q : Bool} {c : C} (h : Inv q c) (s : Sets) (uni : Option Nat)
    (hu : ∀ u, uni = some u → isUni u = true) : Inv q (resume c s uni).1 := by
  unfold resume
  split
  · have := openOwn_inv h uni hu
    split
    · rename_i c1 e hq; rw [hq] at this; exact this
    · rename_i c1 hq; rw [hq] at this
      split
      · exact (this.of_still ⟨rfl, rfl, fun _ => rfl⟩ rfl rfl rfl : Inv q { c1 with remote := .zeroRtt s, st := .zeroRtt }).emit _
      · exact this
  · exact h

/-- Every step keeps the invariant. -/
theorem step_inv {q : Bool} {c : C} (h : Inv q c) (e : Ev) (hf : Fits q c e) : Inv q (step c e) := by
  unfold step
  split
  · exact h
  · cases e with
    | opened id =>
      dsimp only
      generalize c.st.closedNow = b
      cases b
      · exact h.putRecv hf.1 hf.2 .head ⟨nofun, nofun⟩ nofun
      · exact h
    | readable id i =>
      dsimp only
      generalize c.st.closedNow = b
      cases b
      · exact settle_inv (readable_inv h id i hf).1
      · exact h
    | resetIn id code =>
      dsimp only
      generalize c.st.closedNow = b
      cases b
      · exact settle_inv (closeRecv_spec h id _).1
      · exact h
    | stopIn id code =>
      dsimp only
      generalize c.st.closedNow = b
      cases b
      · exact settle_inv (handleStop_spec h id _).1
      · exact h
    | state t uni =>
      dsimp only
      generalize c.st.closedNow = b
      cases b
      · exact stateStep_inv h t uni (by rintro u rfl; exact hf)
      · exact h
    | zeroRttRejected =>
      dsimp only
      generalize c.st.closedNow = b
      cases b
      · exact settle_inv (rejectZeroRtt_inv h)
      · exact h
    | sent id o =>
      dsimp only
      split
      · exact settle_inv (sendOne_inv h id o)
      · exact h
    | resume s uni =>
      dsimp only
      split
      · exact keep_inv (resume_inv h s uni (by rintro u rfl; exact hf))
      · exact h
    | request w id bad =>
      dsimp only
      split
      · exact keepId_inv (request_inv h w id bad hf)
      · exact h
    | createSession udp id bad =>
      dsimp only
      split
      · exact keepId_inv (createSession_inv h udp id bad hf)
      · exact h
    | answer id a =>
      dsimp only
      split
      · exact keep_inv (answer_inv h id a)
      · exact h
    | openStream sid id => exact keepId_inv (openStream_inv h sid id hf)
    | endSession id udp now => exact keep_inv (endSession_inv h id udp now)
    | resetSend id code => exact keep_inv (resetSend_inv h id code)
    | stopRecv id code => exact keep_inv (stopRecv_inv h id code)
    | cancel id code => exact keep_inv (cancelFetch_inv h id code)
    | closeSending id now => exact keep_inv (closeSending_inv h id now)
    | readData id r => exact keep_inv (readData_inv h id r)
    | sendGoaway id =>
      dsimp only
      split
      · exact h.emit _
      · exact h
    | close code =>
      dsimp only
      split
      · exact closeWith_inv h _
      · exact h

theorem init_inv (q : Bool) (r : Role) (wt udp : Bool) : Inv q (init r wt udp) :=
  Inv.empty (fun i hi => absurd hi (by unfold sendCritical init; simp)) rfl rfl rfl

/-- The states a connection can get into. -/
inductive Reach (calm : Bool) (r : Role) (wt udp : Bool) : C → Prop
  | init : Reach calm r wt udp (init r wt udp)
  | step {c : C} (e : Ev) : Reach calm r wt udp c → Fits calm c e → Reach calm r wt udp (step c e)

theorem Reach.inv {q : Bool} {r : Role} {wt udp : Bool} {c : C} (h : Reach q r wt udp c) :
    Inv q c := by
  induction h with
  | init => exact init_inv q r wt udp
  | step e _ hf ih => exact step_inv ih e hf

end Neqo.H3c
