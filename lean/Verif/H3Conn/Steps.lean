import Verif.H3Conn.Lemmas

/-! Every step keeps the invariant. -/

namespace Neqo.H3c

theorem removeRecv_some {c c1 : C} {id : Nat} {k : RK} (h : removeRecv c id = (c1, some k)) :
    get c.recv id = some k := by
  unfold removeRecv at h
  split at h
  · cases h
  · rename_i k' hk
    dsimp only at h
    split at h
    · split at h
      · cases h
      · injection h with _ h2; cases h2; exact hk
    · injection h with _ h2; cases h2; exact hk

theorem removeSend_some {c c1 : C} {id : Nat} {k : SK} (h : removeSend c id = (c1, some k)) :
    get c.send id = some k := by
  unfold removeSend at h
  split at h
  · cases h
  · rename_i k' hk
    dsimp only at h
    split at h
    · split at h
      · cases h
      · injection h with _ h2; cases h2; exact hk
    · injection h with _ h2; cases h2; exact hk

theorem resetRecv_spec (c : C) (id : Nat) (k : RK) (ct : CT) (hk : ∀ s, k ≠ .wt s) :
    Frame c (resetRecv c id k ct).1 ∧ Still c (resetRecv c id k ct).1 := by
  cases k with
  | wt s => exact absurd rfl (hk s)
  | session => exact closeSession_spec c id ct
  | http => exact recvClosed_spec c id ct
  | push p => exact recvClosed_spec c id ct
  | connect => exact recvClosed_spec c id ct
  | head => exact ⟨Frame.refl _, Still.refl _⟩
  | control => exact ⟨Frame.refl _, Still.refl _⟩
  | encoder => exact ⟨Frame.refl _, Still.refl _⟩
  | decoder => exact ⟨Frame.refl _, Still.refl _⟩

theorem stopSend_spec (c : C) (id : Nat) (k : SK) (ct : CT) (hk : ∀ s, k ≠ .wt s) :
    Frame c (stopSend c id k ct) ∧ Still c (stopSend c id k ct) := by
  cases k with
  | wt s => exact absurd rfl (hk s)
  | session f => exact closeSession_spec c id ct
  | http f =>
    cases f
    · exact sendClosed_spec c id ct
    · exact ⟨Frame.refl _, Still.refl _⟩
  | connect f =>
    cases f
    · exact sendClosed_spec c id ct
    · exact ⟨Frame.refl _, Still.refl _⟩

/-- What resetting the receiving half of a session's stream tells the application. -/
def wtReset (c : C) (id : Nat) (ct : CT) : C :=
  match ct with
  | .app _ => c
  | _ => recvClosed c id ct

theorem wtReset_spec (c : C) (id : Nat) (ct : CT) :
    Frame c (wtReset c id ct) ∧ Still c (wtReset c id ct) := by
  unfold wtReset
  split
  · exact ⟨Frame.refl _, Still.refl _⟩
  · exact recvClosed_spec _ _ _

theorem dropWtR {q : Bool} {c c1 : C} (h : Inv q c) {id s : Nat} (hk : get c.recv id = some (.wt s))
    (f : Frame { c with recv := del c.recv id } c1) (st : Still { c with recv := del c.recv id } c1) :
    Inv q (dropSubRecv c1 s id) ∧ Frame c (dropSubRecv c1 s id) ∧ Cut id c (dropSubRecv c1 s id) ∧
      get (dropSubRecv c1 s id).recv id = none := by
  have f' := ((Frame.recv c (del c.recv id)).trans f).trans (dropSubRecv_frame c1 s id)
  obtain ⟨t1, t2⟩ := dropSubRecv_tables c1 s id
  have R : ∀ j, get (dropSubRecv c1 s id).recv j = if j = id then none else get c.recv j := by
    intro j; rw [t1, st.recv]; exact get_del ..
  have S : (dropSubRecv c1 s id).send = c.send := by rw [t2, st.send]
  refine ⟨?_, f', ?_, ?_⟩
  · refine h.delWtR hk ?_ R S f'.ctl f'.enc f'.dec
    intro j; rw [dropSubRecv_lists, st.lists, st.lists]; rfl
  · refine Cut.del true false ?_ ?_
    · intro j; rw [R]; simp
    · intro j; rw [S]; simp
  · rw [R]; simp

theorem dropWtS {q : Bool} {c c1 : C} (h : Inv q c) {id s : Nat} (hk : get c.send id = some (.wt s))
    (f : Frame { c with send := del c.send id } c1) (st : Still { c with send := del c.send id } c1) :
    Inv q (dropSubSend c1 s id) ∧ Frame c (dropSubSend c1 s id) ∧ Cut id c (dropSubSend c1 s id) ∧
      get (dropSubSend c1 s id).send id = none := by
  have f' := ((Frame.send c (del c.send id)).trans f).trans (dropSubSend_frame c1 s id)
  obtain ⟨t1, t2⟩ := dropSubSend_tables c1 s id
  have S : ∀ j, get (dropSubSend c1 s id).send j = if j = id then none else get c.send j := by
    intro j; rw [t2, st.send]; exact get_del ..
  have R : (dropSubSend c1 s id).recv = c.recv := by rw [t1, st.recv]
  refine ⟨?_, f', ?_, ?_⟩
  · refine h.delWtS hk ?_ S R f'.ctl f'.enc f'.dec
    intro j; rw [dropSubSend_lists, st.lists, st.lists]; rfl
  · refine Cut.del false true ?_ ?_
    · intro j; rw [R]; simp
    · intro j; rw [S]; simp
  · rw [S]; simp

theorem closeRecv_wt {c : C} {id s : Nat} (ct : CT) (hk : get c.recv id = some (.wt s)) :
    closeRecv c id ct =
      (dropSubRecv (wtReset { c with recv := del c.recv id } id ct) s id, none) := by
  unfold closeRecv removeRecv
  rw [hk]
  rfl

theorem closeSend_wt {c : C} {id s : Nat} (ct : CT) (hk : get c.send id = some (.wt s)) :
    closeSend c id ct = dropSubSend (sendClosed { c with send := del c.send id } id ct) s id := by
  unfold closeSend removeSend
  rw [hk]
  rfl

theorem closeRecv_spec {q : Bool} {c : C} (h : Inv q c) (id : Nat) (ct : CT) :
    Inv q (closeRecv c id ct).1 ∧ Frame c (closeRecv c id ct).1 ∧ Cut id c (closeRecv c id ct).1 ∧
      get (closeRecv c id ct).1.recv id = none := by
  by_cases hw : ∃ s, get c.recv id = some (.wt s)
  · obtain ⟨s, hk⟩ := hw
    rw [closeRecv_wt ct hk]
    obtain ⟨f, st⟩ := wtReset_spec { c with recv := del c.recv id } id ct
    exact dropWtR h hk f st
  · have hw' : ∀ s, get c.recv id ≠ some (.wt s) := fun s e => hw ⟨s, e⟩
    obtain ⟨h1, h2, h3, h4, _⟩ := removeRecv_spec h id hw'
    unfold closeRecv
    cases hrm : removeRecv c id with
    | mk c1 o =>
      rw [hrm] at h1 h2 h3 h4
      cases o with
      | none => exact ⟨h1, h2, h3, h4⟩
      | some k =>
        dsimp only at h1 h2 h3 h4 ⊢
        have hk : ∀ s, k ≠ .wt s := by
          rintro s rfl; exact hw' s (removeRecv_some hrm)
        obtain ⟨f, st⟩ := resetRecv_spec c1 id k ct hk
        exact ⟨h1.of_frame st f, h2.trans f, h3.still st, by rw [st.recv]; exact h4⟩

theorem closeSend_spec {q : Bool} {c : C} (h : Inv q c) (id : Nat) (ct : CT) :
    Inv q (closeSend c id ct) ∧ Frame c (closeSend c id ct) ∧ Cut id c (closeSend c id ct) ∧
      get (closeSend c id ct).send id = none := by
  by_cases hw : ∃ s, get c.send id = some (.wt s)
  · obtain ⟨s, hk⟩ := hw
    rw [closeSend_wt ct hk]
    obtain ⟨f, st⟩ := sendClosed_spec { c with send := del c.send id } id ct
    exact dropWtS h hk f st
  · have hw' : ∀ s, get c.send id ≠ some (.wt s) := fun s e => hw ⟨s, e⟩
    obtain ⟨h1, h2, h3, h4, _⟩ := removeSend_spec h id hw'
    unfold closeSend
    cases hrm : removeSend c id with
    | mk c1 o =>
      rw [hrm] at h1 h2 h3 h4
      cases o with
      | none => exact ⟨h1, h2, h3, h4⟩
      | some k =>
        dsimp only at h1 h2 h3 h4 ⊢
        have hk : ∀ s, k ≠ .wt s := by
          rintro s rfl; exact hw' s (removeSend_some hrm)
        obtain ⟨f, st⟩ := stopSend_spec c1 id k ct hk
        exact ⟨h1.of_frame st f, h2.trans f, h3.still st, by rw [st.send]; exact h4⟩

/-! ### Reading -/

/-- Nothing but streams, sessions and the log has changed. -/
structure Base (c c' : C) : Prop where
  role : c'.role = c.role
  st : c'.st = c.st
  remote : c'.remote = c.remote
  ctl : c'.ctl = c.ctl
  enc : c'.enc = c.enc
  dec : c'.dec = c.dec
  wtF : c'.wtF = c.wtF
  udpF : c'.udpF = c.udpF
  dead : c'.dead = c.dead
  log : ∃ l, c'.log = c.log ++ l

theorem Frame.base {c c' : C} (h : Frame c c') : Base c c' := by
  obtain ⟨l, hl, _⟩ := h.log
  exact ⟨h.role, h.st, h.remote, h.ctl, h.enc, h.dec, h.wtF, h.udpF, h.dead, l, hl⟩

theorem Base.refl (c : C) : Base c c := (Frame.refl c).base

theorem Base.trans {a b c : C} (h : Base a b) (k : Base b c) : Base a c := by
  obtain ⟨l, hl⟩ := h.log
  obtain ⟨m, hm⟩ := k.log
  exact ⟨k.role.trans h.role, k.st.trans h.st, k.remote.trans h.remote, k.ctl.trans h.ctl,
    k.enc.trans h.enc, k.dec.trans h.dec, k.wtF.trans h.wtF, k.udpF.trans h.udpF,
    k.dead.trans h.dead, l ++ m, by rw [hm, hl, List.append_assoc]⟩

theorem Base.emit (c : C) (e : Eff) : Base c (c.emit e) :=
  ⟨rfl, rfl, rfl, rfl, rfl, rfl, rfl, rfl, rfl, [e], rfl⟩

theorem Inv.of_base {q : Bool} {c c' : C} (h : Inv q c) (s : Still c c') (f : Base c c') :
    Inv q c' := h.of_still s f.ctl f.enc f.dec

theorem announceAux (id : Nat) (l : List Nat) (c : C) :
    let c' := l.foldl (fun c i => (c.emit (.sessionStream id i)).emit (.readable i)) c
    Base c c' ∧ Still c c' ∧ c'.sess = c.sess := by
  induction l generalizing c with
  | nil => exact ⟨Base.refl _, Still.refl _, rfl⟩
  | cons a t ih =>
    obtain ⟨h1, h2, h3⟩ := ih ((c.emit (.sessionStream id a)).emit (.readable a))
    exact ⟨((Base.emit _ _).trans (Base.emit _ _)).trans h1,
      ((Still.emit _ _).trans (Still.emit _ _)).trans h2, h3⟩

theorem announce_spec (c : C) (id : Nat) (s : Sess) :
    Base c (announce c id s) ∧ Still c (announce c id s) ∧ (announce c id s).sess = c.sess :=
  announceAux id s.pending c

theorem setSess_spec {c c1 : C} {id : Nat} {x y : Sess} (h : get c.sess id = some x)
    (b : Base c c1) (s : Still c c1) (e : c1.sess = c.sess) (hr : y.recv = x.recv)
    (hs : y.send = x.send) : Base c (c1.setSess id y) ∧ Still c (c1.setSess id y) :=
  ⟨b.trans (Frame.setSess ..).base, s.trans (Still.setSess (by rw [e]; exact h) hr hs)⟩

theorem checkHeaders_spec {c : C} {id : Nat} {s : Sess} (h : get c.sess id = some s)
    (hd : Option Hdr) :
    Base c (checkHeaders c id s hd).1 ∧ Still c (checkHeaders c id s hd).1 := by
  unfold checkHeaders
  repeat' split
  all_goals first
    | exact ⟨Base.refl _, Still.refl _⟩
    | exact setSess_spec h (Base.emit _ _) (Still.emit _ _) rfl rfl rfl
    | skip
  rename_i n _ _ _ _
  obtain ⟨a1, a2, a3⟩ := announce_spec (c.emit (.sessionStart id)) id s
  exact setSess_spec h ((Base.emit _ _).trans a1) ((Still.emit _ _).trans a2) a3 rfl rfl

theorem readControl_spec (c : C) (id : Nat) (i : SIn) :
    Base c (readControl c id i).1 ∧ Still c (readControl c id i).1 := by
  unfold readControl
  split
  · exact ⟨Base.refl _, Still.refl _⟩
  · rename_i s h
    repeat' split
    all_goals first
      | exact ⟨Base.refl _, Still.refl _⟩
      | exact setSess_spec h (Base.emit _ _) (Still.emit _ _) rfl rfl rfl

theorem sessReceive_spec (c : C) (id : Nat) (i : SIn) :
    Base c (sessReceive c id i).1 ∧ Still c (sessReceive c id i).1 := by
  unfold sessReceive
  split
  · exact ⟨Base.refl _, Still.refl _⟩
  · rename_i s h
    split
    · exact ⟨Base.refl _, Still.refl _⟩
    · have hc := checkHeaders_spec h i.hdr
      split
      · rename_i c1 e hq; rw [hq] at hc; exact hc
      · rename_i c1 hq; rw [hq] at hc
        have hr := readControl_spec c1 id i
        split
        · rename_i c2 e hq2; rw [hq2] at hr; exact ⟨hc.1.trans hr.1, hc.2.trans hr.2⟩
        · rename_i c2 hq2; rw [hq2] at hr; exact ⟨hc.1.trans hr.1, hc.2.trans hr.2⟩

/-- A request on a server can turn out to be an extended CONNECT. -/
theorem Inv.toConnect {q : Bool} {c : C} (h : Inv q c) {id : Nat} {k : RK}
    (hg : get c.recv id = some k) (hk : k = .http ∨ (∃ p, k = .push p) ∨ k = .connect) :
    Inv q { c with recv := put c.recv id .connect } := by
  have G : ∀ j, get ({ c with recv := put c.recv id .connect } : C).recv j =
      if j = id then some .connect else get c.recv j := fun j => get_put ..
  have k1 : k ≠ .session := by rintro rfl; rcases hk with e | ⟨_, e⟩ | e <;> cases e
  have k2 : ∀ s, k ≠ .wt s := by rintro s rfl; rcases hk with e | ⟨_, e⟩ | e <;> cases e
  have k3 : k.critical = false := by rcases hk with rfl | ⟨_, rfl⟩ | rfl <;> rfl
  have R : ∀ j k', get ({ c with recv := put c.recv id .connect } : C).recv j = some k' →
      (j = id ∧ k' = .connect) ∨ get c.recv j = some k' := by
    intro j k' e; rw [G] at e; split at e
    · cases e; exact Or.inl ⟨by assumption, rfl⟩
    · exact Or.inr e
  have K : ∀ j k', k' ≠ k → get c.recv j = some k' →
      get ({ c with recv := put c.recv id .connect } : C).recv j = some k' := by
    intro j k' hne e; rw [G, if_neg]; exact e
    rintro rfl; rw [hg] at e; cases e; exact hne rfl
  constructor
  · intro s a b i e hi; exact K _ _ (fun e => k2 s e.symm) (h.subR s a b i e hi)
  · intro s a b i e hi; exact h.subS s a b i e hi
  · intro s a b e hn; exact h.gone s a b e (fun x => hn (K _ _ (fun e => k1 e.symm) x))
  · intro i e
    rcases R _ _ e with ⟨_, e⟩ | e
    · cases e
    · exact h.pairR i e
  · intro i f e; exact K _ _ (fun e => k1 e.symm) (h.pairS i f e)
  · intro i k' e hx
    obtain ⟨r, hr1, hr2⟩ := h.ext i k' e hx
    rw [G]; split
    · exact ⟨_, rfl, rfl⟩
    · exact ⟨r, hr1, hr2⟩
  · intro i s k' e e'
    rcases R _ _ e' with ⟨rfl, rfl⟩ | e'
    · have := h.wtS i s k e hg; exact absurd this (k2 s)
    · exact h.wtS i s k' e e'
  · intro i s k' e e'
    rcases R _ _ e with ⟨_, e⟩ | e
    · cases e
    · exact h.wtR i s k' e e'
  · intro i e
    rcases R _ _ e with ⟨_, e⟩ | e
    · cases e
    · exact h.head i e
  · intro i k' e hc
    rcases R _ _ e with ⟨_, rfl⟩ | e
    · cases hc
    · exact h.uni i k' e hc
  · intro i j k' e e' hc
    rcases R _ _ e with ⟨_, rfl⟩ | e
    · cases hc
    · rcases R _ _ e' with ⟨_, rfl⟩ | e'
      · cases hc
      · exact h.one i j k' e e' hc
  · exact h.own
  · intro e i s e'
    rcases R _ _ e' with ⟨_, e''⟩ | e'
    · cases e''
    · exact h.regR e i s e'
  · exact h.regS

theorem readMessage_spec {q : Bool} {c : C} (h : Inv q c) {id : Nat} {k : RK}
    (hg : get c.recv id = some k) (hk : k = .http ∨ (∃ p, k = .push p) ∨ k = .connect) (r : Read) :
    Inv q (readMessage c id r).1 ∧ Base c (readMessage c id r).1 ∧
      (∀ s, get (readMessage c id r).1.recv id ≠ some (.wt s)) := by
  have k2 : ∀ s, get c.recv id ≠ some (.wt s) := by
    intro s e; rw [hg] at e; cases e; rcases hk with e | ⟨_, e⟩ | e <;> cases e
  unfold readMessage
  repeat' split
  all_goals first
    | exact ⟨h, Base.refl _, k2⟩
    | skip
  refine ⟨h.toConnect hg hk, (Frame.recv _ _).base, ?_⟩
  intro s e
  have : get (put c.recv id RK.connect) id = some (.wt s) := e
  rw [get_put, if_pos rfl] at this
  cases this

/-- What `receive` keeps, and when it says that a stream is done. -/
theorem receive_spec {q : Bool} {c : C} (h : Inv q c) {id : Nat} {k : RK}
    (hg : get c.recv id = some k) (r : Read) :
    Inv q (receive c id k r).1 ∧ Base c (receive c id k r).1 ∧
      (∀ s, k = .wt s → (receive c id k r).2 = .ok (.none, false)) ∧
      ((∀ s, k ≠ .wt s) → ∀ s, get (receive c id k r).1.recv id ≠ some (.wt s)) ∧
      (∀ t d, (receive c id k r).2 = .ok (.newStream t, d) →
        k = .head ∧ d = true ∧ (receive c id k r).1 = c ∧ r = .newStream t) := by
  have hs : (∀ s, k ≠ .wt s) → ∀ s, get c.recv id ≠ some (.wt s) := by
    intro a s e; rw [hg] at e; cases e; exact a s rfl
  cases k with
  | head =>
    unfold receive
    dsimp only
    split
    · exact ⟨h, Base.refl _, (by intro s e; cases e), hs, by
        intro t d e; injection e with e; injection e with e1 e2; injection e1 with e1
        subst e1; exact ⟨rfl, e2.symm, rfl, rfl⟩⟩
    · exact ⟨h, Base.refl _, (by intro s e; cases e), hs, by intro t d e; cases e⟩
    · exact ⟨h, Base.refl _, (by intro s e; cases e), hs, by
        intro t d e; injection e with e; injection e with e1 e2; cases e1⟩
  | control =>
    unfold receive
    dsimp only
    split <;> exact ⟨h, Base.refl _, (by intro s e; cases e), hs, by
        intro t d e; first | cases e | (injection e with e; injection e with e1 e2; cases e1)⟩
  | decoder =>
    unfold receive
    dsimp only
    split <;> exact ⟨h, Base.refl _, (by intro s e; cases e), hs, by
        intro t d e; first | cases e | (injection e with e; injection e with e1 e2; cases e1)⟩
  | encoder =>
    unfold receive
    dsimp only
    split <;> exact ⟨h, Base.refl _, (by intro s e; cases e), hs, by
        intro t d e; first | cases e | (injection e with e; injection e with e1 e2; cases e1)⟩
  | http | push | connect =>
    have hm := readMessage_spec h hg (by simp) r
    refine ⟨hm.1, hm.2.1, (by intro s e; cases e), fun _ => hm.2.2, ?_⟩
    intro t d e
    exfalso
    unfold receive readMessage at e
    dsimp only at e
    repeat' split at e
    all_goals first | cases e | (injection e with e; injection e with e1 e2; cases e1)
  | session =>
    unfold receive
    dsimp only
    split
    · rename_i i
      have hm := sessReceive_spec c id i
      split
      · rename_i c1 e hq
        rw [hq] at hm
        refine ⟨h.of_base hm.2 hm.1, hm.1, (by intro s e; cases e), ?_, by intro t d e; cases e⟩
        intro _ s e'; rw [hm.2.recv] at e'; exact hs (by intro s e; cases e) s e'
      · rename_i c1 d hq
        rw [hq] at hm
        refine ⟨h.of_base hm.2 hm.1, hm.1, (by intro s e; cases e), ?_, ?_⟩
        · intro _ s e'; rw [hm.2.recv] at e'; exact hs (by intro s e; cases e) s e'
        · intro t d e; injection e with e; injection e with e1 e2; cases e1
    · exact ⟨h, Base.refl _, (by intro s e; cases e), hs, by
        intro t d e; injection e with e; injection e with e1 e2; cases e1⟩
  | wt s =>
    unfold receive
    dsimp only
    refine ⟨?_, ?_, ?_, ?_, ?_⟩
    · split
      · exact h.emit _
      · exact h
    · split
      · exact Base.emit _ _
      · exact Base.refl _
    · intro _ _; trivial
    · intro a; exact absurd rfl (a s)
    · intro t d e; injection e with e; injection e with e1 e2; cases e1

theorem afterRead_spec {q : Bool} {c : C} (h : Inv q c) {id : Nat} (o : Except Err (Output × Bool))
    (hk : (∀ s, get c.recv id ≠ some (.wt s)) ∨ ∃ e, o = .error e ∨ ∃ w, o = .ok (w, false)) :
    Inv q (afterRead c id o).1 ∧ Base c (afterRead c id o).1 := by
  unfold afterRead
  split
  · have hk' : ∀ s, get c.recv id ≠ some (.wt s) := by
      rcases hk with hk | ⟨e, hk | ⟨w, hk⟩⟩
      · exact hk
      · cases hk
      · injection hk with hk; injection hk with _ hk; cases hk
    have := removeRecv_spec h id hk'
    exact ⟨this.1, this.2.1.base⟩
  · exact ⟨h, Base.refl _⟩
  · rename_i e
    split
    · have := closeRecv_spec (h.emit (.stopSending id e.code)) id (.fault e.code)
      split
      · rename_i c1 e1 hq; rw [hq] at this
        exact ⟨this.1, (Base.emit _ _).trans this.2.1.base⟩
      · rename_i c1 hq; rw [hq] at this
        exact ⟨this.1, (Base.emit _ _).trans this.2.1.base⟩
    · exact ⟨h, Base.refl _⟩

/-- Reading one stream keeps the invariant. If it turns out to be a new stream, its handler is gone
and its other half is not there. -/
theorem streamReceive_spec {q : Bool} {c : C} (h : Inv q c) (id : Nat) (r : Read) :
    Inv q (streamReceive c id r).1 ∧ Base c (streamReceive c id r).1 ∧
      ∀ t, (streamReceive c id r).2 = .ok (.newStream t) →
        get (streamReceive c id r).1.recv id = none ∧ get (streamReceive c id r).1.send id = none ∧
        get c.recv id = some .head ∧ r = .newStream t ∧ (streamReceive c id r).1.sess = c.sess := by
  unfold streamReceive
  split
  · exact ⟨h, Base.refl _, by intro t e; cases e⟩
  · rename_i k hg
    dsimp only
    obtain ⟨h1, h2, h3, h4, h5⟩ := receive_spec h hg r
    have hk : (∀ s, get (receive c id k r).1.recv id ≠ some (.wt s)) ∨
        ∃ e, (receive c id k r).2 = .error e ∨ ∃ w, (receive c id k r).2 = .ok (w, false) := by
      by_cases hw : ∃ s, k = .wt s
      · obtain ⟨s, rfl⟩ := hw
        exact Or.inr ⟨.panic, Or.inr ⟨_, h3 s rfl⟩⟩
      · exact Or.inl (h4 (fun s e => hw ⟨s, e⟩))
    obtain ⟨a1, a2⟩ := afterRead_spec h1 (receive c id k r).2 hk
    refine ⟨a1, h2.trans a2, ?_⟩
    intro t e
    generalize hr2 : (receive c id k r).2 = o at e
    have hcase : ∃ d, o = .ok (.newStream t, d) := by
      unfold afterRead at e
      split at e
      · injection e with e; subst e; exact ⟨_, rfl⟩
      · injection e with e; subst e; exact ⟨_, rfl⟩
      · split at e
        · split at e <;> cases e
        · cases e
    obtain ⟨d, hd⟩ := hcase
    subst hd
    obtain ⟨b1, b2, b3, b4⟩ := h5 t d hr2
    subst b1; subst b2
    rw [b3]
    have hhd := h.head id hg
    obtain ⟨_, _, _, _, hrm⟩ := removeRecv_spec h id (by intro s e; rw [hg] at e; cases e)
    have hrm' := hrm .head hg rfl
    unfold afterRead
    dsimp only
    rw [hrm']
    refine ⟨?_, hhd, hg, b4, rfl⟩
    show get (del c.recv id) id = none
    rw [get_del]; simp

theorem unblocked_spec {q : Bool} (un : Nat → Read) (l : List Nat) :
    ∀ {c : C}, Inv q c → Inv q (unblocked c un l).1 ∧ Base c (unblocked c un l).1 := by
  induction l with
  | nil => intro c h; exact ⟨h, Base.refl _⟩
  | cons id t ih =>
    intro c h
    unfold unblocked
    split
    · exact ih h
    · rename_i k hg
      split
      · dsimp only
        obtain ⟨h1, h2, h3, h4, h5⟩ := receive_spec h hg (un id)
        have hk : (∀ s, get (receive c id k (un id)).1.recv id ≠ some (.wt s)) ∨
            ∃ e, (receive c id k (un id)).2 = .error e ∨
              ∃ w, (receive c id k (un id)).2 = .ok (w, false) := by
          by_cases hw : ∃ s, k = .wt s
          · obtain ⟨s, rfl⟩ := hw
            exact Or.inr ⟨.panic, Or.inr ⟨_, h3 s rfl⟩⟩
          · exact Or.inl (h4 (fun s e => hw ⟨s, e⟩))
        have ha := afterRead_spec h1 (receive c id k (un id)).2 hk
        split
        · rename_i c1 e hq; rw [hq] at ha; exact ⟨ha.1, h2.trans ha.2⟩
        · rename_i c1 o hq; rw [hq] at ha
          have := ih ha.1
          exact ⟨this.1, (h2.trans ha.2).trans this.2⟩
      · exact ⟨h, Base.refl _⟩

/-! ### Control frames -/

/-- The part of the state that control frames leave alone. -/
structure Quiet (c c' : C) : Prop where
  role : c'.role = c.role
  st : c'.st = c.st
  recv : c'.recv = c.recv
  send : c'.send = c.send
  sess : c'.sess = c.sess
  ctl : c'.ctl = c.ctl
  enc : c'.enc = c.enc
  dec : c'.dec = c.dec
  dead : c'.dead = c.dead
  log : ∃ l, c'.log = c.log ++ l ∧ ∀ e ∈ l, ∃ u o, e = .negotiated u o

theorem Quiet.refl (c : C) : Quiet c c :=
  ⟨rfl, rfl, rfl, rfl, rfl, rfl, rfl, rfl, rfl, [], by simp, by simp⟩

theorem Quiet.trans {a b c : C} (h : Quiet a b) (k : Quiet b c) : Quiet a c := by
  obtain ⟨l, hl, pl⟩ := h.log
  obtain ⟨m, hm, pm⟩ := k.log
  refine ⟨k.role.trans h.role, k.st.trans h.st, k.recv.trans h.recv, k.send.trans h.send,
    k.sess.trans h.sess, k.ctl.trans h.ctl, k.enc.trans h.enc, k.dec.trans h.dec,
    k.dead.trans h.dead, l ++ m, by rw [hm, hl, List.append_assoc], ?_⟩
  intro e he
  rcases List.mem_append.mp he with x | x
  · exact pl e x
  · exact pm e x

theorem Quiet.still {c c' : C} (h : Quiet c c') : Still c c' :=
  ⟨h.recv, h.send, fun j => by unfold lists; rw [h.sess]⟩

theorem Inv.of_quiet {q : Bool} {c c' : C} (h : Inv q c) (s : Quiet c c') : Inv q c' :=
  h.of_still s.still s.ctl s.enc s.dec

theorem features_quiet (c : C) (s : Sets) (tp : Bool) : Quiet c (features c s tp) := by
  unfold features
  dsimp only
  have e1 : ∀ (c : C) u o, Quiet c (c.emit (.negotiated u o)) := fun c u o =>
    ⟨rfl, rfl, rfl, rfl, rfl, rfl, rfl, rfl, rfl, [.negotiated u o], rfl, by
      intro e he; rw [List.mem_singleton] at he; exact ⟨u, o, he⟩⟩
  have e2 : ∀ (c : C) a b, Quiet c { c with wtF := a, udpF := b } := fun c a b =>
    ⟨rfl, rfl, rfl, rfl, rfl, rfl, rfl, rfl, rfl, [], by simp, by simp⟩
  split <;> split
  · exact ((e1 _ _ _).trans (e1 _ _ _)).trans (e2 _ _ _)
  · exact (e1 _ _ _).trans (e2 _ _ _)
  · exact (e1 _ _ _).trans (e2 _ _ _)
  · exact e2 _ _ _

theorem Quiet.setRemote {c c' : C} (h : Quiet c c') (r : Remote) : Quiet c { c' with remote := r } :=
  ⟨h.role, h.st, h.recv, h.send, h.sess, h.ctl, h.enc, h.dec, h.dead, h.log⟩

theorem handleSettings_quiet (c : C) (s : Sets) (tp : Bool) : Quiet c (handleSettings c s tp).1 := by
  unfold handleSettings
  have f := features_quiet c s tp
  split
  · split
    · exact f.setRemote _
    · exact Quiet.refl _
  · dsimp only
    split
    · exact f
    · split
      · exact f
      · exact f.setRemote _
  · exact Quiet.refl _

theorem controlFrame_quiet (c : C) (tp : Bool) (f : Fr) : Quiet c (controlFrame c tp f).1 := by
  unfold controlFrame
  split
  · rename_i s
    have := handleSettings_quiet c s tp
    split
    · rename_i c1 e hq; rw [hq] at this; exact this
    · rename_i c1 hq; rw [hq] at this; exact this
  · split <;> exact Quiet.refl _
  · exact Quiet.refl _

theorem controlFrames_quiet (tp : Bool) (l : List Fr) :
    ∀ c, Quiet c (controlFrames c tp l).1 := by
  induction l with
  | nil => intro c; exact Quiet.refl _
  | cons f t ih =>
    intro c
    unfold controlFrames
    have := controlFrame_quiet c tp f
    split
    · rename_i c1 e hq; rw [hq] at this; exact this
    · rename_i c1 o hq; rw [hq] at this
      have h2 := ih c1
      split
      · rename_i c2 e hq2; rw [hq2] at h2; exact this.trans h2
      · rename_i c2 o hq2; rw [hq2] at h2; exact this.trans h2

/-! ### New streams -/

/-- A stream neither half of which is known gets handlers of simple kinds. -/
theorem Inv.insert {q : Bool} {c c' : C} (h : Inv q c) {id : Nat} (gr : get c.recv id = none)
    (gs : get c.send id = none) (kr : Option RK) (ks : Option SK)
    (hl : ∀ j, lists c' j = lists c j)
    (hr : ∀ j, get c'.recv j = if j = id then kr else get c.recv j)
    (hs : ∀ j, get c'.send j = if j = id then ks else get c.send j)
    (own : ∀ i, sendCritical c' i = true → isUni i = true)
    (k1 : kr ≠ some .session ∧ ∀ s, kr ≠ some (.wt s))
    (k2 : (∀ f, ks ≠ some (.session f)) ∧ ∀ s, ks ≠ some (.wt s))
    (k3 : ∀ k, ks = some k → k.ext = true → ∃ r, kr = some r ∧ r.ext = true)
    (k4 : kr = some .head → ks = none)
    (k5 : ∀ k, kr = some k → k.critical = true → isUni id = true ∧ ∀ j, get c.recv j ≠ some k) :
    Inv q c' := by
  have R : ∀ j k, get c'.recv j = some k → (j = id ∧ kr = some k) ∨ get c.recv j = some k := by
    intro j k e; rw [hr] at e; split at e
    · exact Or.inl ⟨by assumption, e⟩
    · exact Or.inr e
  have S : ∀ j k, get c'.send j = some k → (j = id ∧ ks = some k) ∨ get c.send j = some k := by
    intro j k e; rw [hs] at e; split at e
    · exact Or.inl ⟨by assumption, e⟩
    · exact Or.inr e
  have KR : ∀ j k, get c.recv j = some k → get c'.recv j = some k := by
    intro j k e; rw [hr, if_neg]; exact e
    rintro rfl; rw [gr] at e; cases e
  have KS : ∀ j k, get c.send j = some k → get c'.send j = some k := by
    intro j k e; rw [hs, if_neg]; exact e
    rintro rfl; rw [gs] at e; cases e
  constructor
  · intro s a b i e hi; rw [hl] at e; exact KR _ _ (h.subR s a b i e hi)
  · intro s a b i e hi; rw [hl] at e; exact KS _ _ (h.subS s a b i e hi)
  · intro s a b e hn; rw [hl] at e; exact h.gone s a b e (fun x => hn (KR _ _ x))
  · intro i e
    rcases R _ _ e with ⟨_, e⟩ | e
    · exact absurd e k1.1
    · obtain ⟨p, f, hf⟩ := h.pairR i e
      rw [hl]; exact ⟨p, f, KS _ _ hf⟩
  · intro i f e
    rcases S _ _ e with ⟨_, e⟩ | e
    · exact absurd e (k2.1 f)
    · exact KR _ _ (h.pairS i f e)
  · intro i k e hx
    rcases S _ _ e with ⟨rfl, e⟩ | e
    · obtain ⟨r, r1, r2⟩ := k3 k e hx
      exact ⟨r, by rw [hr, if_pos rfl]; exact r1, r2⟩
    · obtain ⟨r, r1, r2⟩ := h.ext i k e hx
      exact ⟨r, KR _ _ r1, r2⟩
  · intro i s k e e'
    rcases S _ _ e with ⟨_, e⟩ | e
    · exact absurd e (k2.2 s)
    · rcases R _ _ e' with ⟨rfl, _⟩ | e'
      · rw [gs] at e; cases e
      · exact h.wtS i s k e e'
  · intro i s k e e'
    rcases R _ _ e with ⟨_, e⟩ | e
    · exact absurd e (k1.2 s)
    · rcases S _ _ e' with ⟨rfl, _⟩ | e'
      · rw [gr] at e; cases e
      · exact h.wtR i s k e e'
  · intro i e
    rcases R _ _ e with ⟨rfl, e⟩ | e
    · rw [hs, if_pos rfl]; exact k4 e
    · have := h.head i e
      rw [hs, if_neg]; exact this
      rintro rfl; rw [gr] at e; cases e
  · intro i k e hc
    rcases R _ _ e with ⟨rfl, e⟩ | e
    · exact (k5 k e hc).1
    · exact h.uni i k e hc
  · intro i j k e e' hc
    rcases R _ _ e with ⟨rfl, e⟩ | e
    · rcases R _ _ e' with ⟨rfl, _⟩ | e'
      · rfl
      · exact absurd e' ((k5 k e hc).2 j)
    · rcases R _ _ e' with ⟨rfl, e'⟩ | e'
      · exact absurd e ((k5 k e' hc).2 i)
      · exact h.one i j k e e' hc
  · exact own
  · intro e i s e'
    rw [hl]
    rcases R _ _ e' with ⟨_, e'⟩ | e'
    · exact absurd e' (k1.2 s)
    · exact h.regR e i s e'
  · intro e i s e'
    rw [hl]
    rcases S _ _ e' with ⟨_, e'⟩ | e'
    · exact absurd e' (k2.2 s)
    · exact h.regS e i s e'

theorem Inv.putRecv {q : Bool} {c : C} (h : Inv q c) {id : Nat} (gr : get c.recv id = none)
    (gs : get c.send id = none) (k : RK) (k1 : k ≠ .session ∧ ∀ s, k ≠ .wt s)
    (k5 : k.critical = true → isUni id = true ∧ ∀ j, get c.recv j ≠ some k) :
    Inv q { c with recv := put c.recv id k } := by
  refine h.insert gr gs (some k) none (fun _ => rfl) (fun j => get_put ..) ?_ h.own ?_ ?_ ?_ ?_ ?_
  · intro j; show get c.send j = _; split
    · rename_i e; rw [e, gs]
    · rfl
  · exact ⟨fun e => k1.1 (by cases e; rfl), fun s e => k1.2 s (by cases e; rfl)⟩
  · exact ⟨nofun, nofun⟩
  · intro k' e; cases e
  · intro _; rfl
  · intro k' e hc; cases e; exact k5 hc

theorem hasKind_false {c : C} {k : RK} (h : hasKind c k = false) : ∀ j, get c.recv j ≠ some k := by
  intro j hj
  unfold hasKind at h
  generalize c.recv = l at h hj
  induction l with
  | nil => cases hj
  | cons p t ih =>
    obtain ⟨a, v⟩ := p
    simp only [List.any_cons, Bool.or_eq_false_iff, beq_eq_false_iff_ne] at h
    unfold get at hj
    split at hj
    · cases hj; exact h.1 rfl
    · exact ih h.2 hj

/-- The type of a stream fits its id: critical streams and pushes are unidirectional, requests are
not (neqo-http3/src/stream_type_reader.rs:100-180). -/
def TypeFits (id : Nat) : NewType → Bool
  | .control | .push _ | .decoder | .encoder => isUni id
  | .http => !isUni id
  | .wt _ | .unknown => true

theorem newStream_spec {q : Bool} {c : C} (h : Inv q c) {id : Nat} (gr : get c.recv id = none)
    (gs : get c.send id = none) (t : NewType) (ht : TypeFits id t = true) (r : Read) :
    Inv q (newStream c t id r).1 ∧ Base c (newStream c t id r).1 ∧
      ∀ t', (newStream c t id r).2 = .ok (.newStream t') →
        t' = t ∧ (newStream c t id r).1 = c := by
  have crit : ∀ k : RK, k ≠ .head → (k ≠ .session ∧ ∀ s, k ≠ .wt s) → isUni id = true →
      hasKind c k = false →
      let x := streamReceive { c with recv := put c.recv id k } id r
      Inv q x.1 ∧ Base c x.1 ∧ ∀ t', x.2 = .ok (.newStream t') → t' = t ∧ x.1 = c := by
    intro k hh hk hu hf
    have hi := h.putRecv gr gs k hk (fun _ => ⟨hu, hasKind_false hf⟩)
    obtain ⟨a1, a2, a3⟩ := streamReceive_spec hi id r
    refine ⟨a1, (Frame.recv c (put c.recv id k)).base.trans a2, ?_⟩
    intro t' e
    have h4 : get (put c.recv id k) id = some .head := (a3 t' e).2.2.1
    rw [get_put, if_pos rfl] at h4
    cases h4; exact absurd rfl hh
  cases t with
  | control =>
    unfold newStream
    dsimp only
    split
    · exact ⟨h, Base.refl _, by intro t e; cases e⟩
    · rename_i hf
      exact crit .control (by intro e; cases e) ⟨nofun, nofun⟩ ht (by simpa using hf)
  | decoder =>
    unfold newStream
    dsimp only
    split
    · exact ⟨h, Base.refl _, by intro t e; cases e⟩
    · rename_i hf
      exact crit .decoder (by intro e; cases e) ⟨nofun, nofun⟩ ht (by simpa using hf)
  | encoder =>
    unfold newStream
    dsimp only
    split
    · exact ⟨h, Base.refl _, by intro t e; cases e⟩
    · rename_i hf
      exact crit .encoder (by intro e; cases e) ⟨nofun, nofun⟩ ht (by simpa using hf)
  | push p => exact ⟨h, Base.refl _, by intro t e; injection e with e; cases e; exact ⟨rfl, rfl⟩⟩
  | http => exact ⟨h, Base.refl _, by intro t e; injection e with e; cases e; exact ⟨rfl, rfl⟩⟩
  | unknown => exact ⟨h.emit _, Base.emit _ _, by intro t e; injection e with e; cases e⟩
  | wt s =>
    unfold newStream
    dsimp only
    split
    · split
      · exact ⟨h, Base.refl _, by intro t e; injection e with e; cases e; exact ⟨rfl, rfl⟩⟩
      · exact ⟨h.emit _, Base.emit _ _, by intro t e; injection e with e; cases e⟩
    · exact ⟨h.emit _, Base.emit _ _, by intro t e; injection e with e; cases e⟩

theorem handleOutput_spec {q : Bool} {c : C} (h : Inv q c) (i : In) (o : Output) :
    Inv q (handleOutput c i o).1 ∧ (handleOutput c i o).1.st = c.st ∧
      (handleOutput c i o).1.role = c.role ∧ (handleOutput c i o).1.dead = c.dead ∧
      ∀ t, (handleOutput c i o).2 = .ok (.newStream t) →
        o = .newStream t ∧ (handleOutput c i o).1 = c := by
  unfold handleOutput
  split
  · rename_i ids
    have := unblocked_spec i.un ids h
    split
    · rename_i c1 e hq; rw [hq] at this
      exact ⟨this.1, this.2.st, this.2.role, this.2.dead, by intro t e; cases e⟩
    · rename_i c1 hq; rw [hq] at this
      exact ⟨this.1, this.2.st, this.2.role, this.2.dead, by intro t e; cases e⟩
  · rename_i fs
    have := controlFrames_quiet i.tp fs c
    split
    · rename_i c1 e hq; rw [hq] at this
      exact ⟨h.of_quiet this, this.st, this.role, this.dead, by intro t e; cases e⟩
    · rename_i c1 r hq; rw [hq] at this
      exact ⟨h.of_quiet this, this.st, this.role, this.dead, by intro t e; cases e⟩
  · exact ⟨h, rfl, rfl, rfl, by intro t e; injection e with e; exact ⟨e, rfl⟩⟩

theorem readableBase_spec {q : Bool} {c : C} (h : Inv q c) (id : Nat) (r r' : Read) (i : In)
    (ht : ∀ t, r = .newStream t → get c.recv id = some .head → TypeFits id t = true) :
    let x := readableBase c id r r' i
    Inv q x.1 ∧ x.1.st = c.st ∧ x.1.role = c.role ∧ x.1.dead = c.dead ∧
      ∀ t, x.2 = .ok (.newStream t) → get x.1.recv id = none ∧ get x.1.send id = none ∧
        r = .newStream t ∧ get c.recv id = some .head ∧ x.1.sess = c.sess := by
  dsimp only
  unfold readableBase
  have h1 := streamReceive_spec h id r
  split
  · rename_i c1 e hq; rw [hq] at h1
    exact ⟨h1.1, h1.2.1.st, h1.2.1.role, h1.2.1.dead, by intro t e; cases e⟩
  · rename_i c1 t hq; rw [hq] at h1
    obtain ⟨a1, a2, a3⟩ := h1
    obtain ⟨b1, b2, b3, b4, b5⟩ := a3 t rfl
    have h2 := newStream_spec a1 b1 b2 t (ht t b4 b3) r'
    split
    · rename_i c2 e hq2; rw [hq2] at h2
      exact ⟨h2.1, h2.2.1.st.trans a2.st, h2.2.1.role.trans a2.role, h2.2.1.dead.trans a2.dead,
        by intro t e; cases e⟩
    · rename_i c2 o hq2; rw [hq2] at h2
      obtain ⟨d1, d2, d3⟩ := h2
      obtain ⟨e1, e2, e3, e4, e5⟩ := handleOutput_spec d1 i o
      refine ⟨e1, e2.trans (d2.st.trans a2.st), e3.trans (d2.role.trans a2.role),
        e4.trans (d2.dead.trans a2.dead), ?_⟩
      intro t' et
      obtain ⟨ho, hc⟩ := e5 t' et
      subst ho
      obtain ⟨g1, g2⟩ := d3 t' rfl
      subst g1
      dsimp only at g2
      rw [hc, g2]
      exact ⟨b1, b2, b4, b3, b5⟩
  · rename_i c1 o hn hq; rw [hq] at h1
    obtain ⟨a1, a2, a3⟩ := h1
    obtain ⟨e1, e2, e3, e4, e5⟩ := handleOutput_spec a1 i o
    refine ⟨e1, e2.trans a2.st, e3.trans a2.role, e4.trans a2.dead, ?_⟩
    intro t' et
    obtain ⟨ho, hc⟩ := e5 t' et
    exact absurd ho (hn t')

end Neqo.H3c
