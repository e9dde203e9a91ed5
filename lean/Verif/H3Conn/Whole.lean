import Verif.H3Conn.Order

/-! Whole steps. -/

namespace Neqo.H3c

/-- The state stays, or the connection is over now. -/
def Mv (c c' : C) : Prop := c'.st = c.st ∨ (c'.st.over = true ∧ c.st.rank ≤ 4)

theorem rank_open {s : St} (h : s.closedNow = false) : s.rank ≤ 4 := by
  cases s with
  | closed r => cases h
  | _ => simp [St.rank]

theorem rank_not_over {s : St} (h : s.over = false) : s.rank ≤ 4 := by
  cases s with
  | closed r => cases h
  | closing r => cases h
  | _ => simp [St.rank]

theorem Mv.forward {c c' : C} (h : Mv c c') : Forward c.st c'.st := by
  rcases h with h | ⟨h, k⟩
  · exact Forward.of_eq h
  · exact Forward.over k h

theorem Mv.below {c c' : C} (h : Mv c c') (t : Track c c') (hr : c.role = .client) (hb : Below c) :
    Below c' := by
  rcases h with h | ⟨h, _⟩
  · exact hb.track t hr h
  · exact Below.over h

theorem Mv.after {a b c : C} (h : b.st = a.st) (k : Mv b c) : Mv a c := by
  unfold Mv at *
  rw [h] at k; exact k

theorem closeWith_mv {c : C} (code : Nat) (h : c.role = .server → c.st.closedNow = false) :
    Mv c (closeWith c code) := by
  unfold closeWith
  split
  · split
    · exact Or.inl rfl
    · rename_i ho
      exact Or.inr ⟨rfl, rank_not_over (by simpa using ho)⟩
  · rename_i hr; exact Or.inr ⟨rfl, rank_open (h hr)⟩

theorem failWith_mv {c : C} (e : Err) (h : c.role = .server → c.st.closedNow = false) :
    Mv c (failWith c e) := by
  unfold failWith
  split
  · exact Or.inl rfl
  · exact closeWith_mv _ h
  · exact closeWith_mv _ h

theorem settle_mv {c : C} {x : C × Option Err} (hst : x.1.st = c.st)
    (h : c.st.closedNow = false) : Mv c (settle x) := by
  unfold settle
  split
  · exact Or.inl hst
  · exact Mv.after hst (failWith_mv _ (fun _ => by dsimp only at hst; rw [hst]; exact h))

theorem keep_mv {c : C} {x : C × Option Err} (h : Mv c x.1) : Mv c (keep x) := by
  unfold keep
  split <;> exact h

/-! ### The state after each call -/

theorem sendOne_st {q : Bool} {c : C} (h : Inv q c) (id : Nat) (o : Sent) :
    (sendOne c id o).1.st = c.st := by
  unfold sendOne
  have R : (∀ s, get c.send id ≠ some (.wt s)) → (removeSend c id).1.st = c.st :=
    fun hw => (removeSend_spec h id hw).2.1.st
  split
  · rfl
  · rename_i k hk
    split
    · rfl
    · split
      · dsimp only
        split
        · exact R (by intro s e; rw [hk] at e; cases e)
        · rfl
      · rfl
    · split
      · dsimp only
        split
        · exact R (by intro s e; rw [hk] at e; cases e)
        · rfl
      · dsimp only
        split
        · exact R (by intro s e; rw [hk] at e; cases e)
        · rfl
      · exact (dropWtSend h hk).2.1.st
      · split
        · rfl
        · rename_i s hs
          split
          · exact (removeSend_spec (setDone_inv h .done hs) id
              (by intro s e; have e' : get c.send id = _ := e; rw [hk] at e'; cases e')).2.1.st
          · dsimp only
            split
            · exact R (by intro s e; rw [hk] at e; cases e)
            · rfl

theorem finish_st {q : Bool} {c : C} (h : Inv q c) {id : Nat} {k : SK} (hk : get c.send id = some k)
    (now : Bool) : (finish c id k now).st = c.st := by
  unfold finish
  have R : (∀ s, get c.send id ≠ some (.wt s)) → (removeSend c id).1.st = c.st :=
    fun hw => (removeSend_spec h id hw).2.1.st
  split
  · split
    · exact R (by intro s e; rw [hk] at e; cases e)
    · rfl
  · split
    · exact R (by intro s e; rw [hk] at e; cases e)
    · rfl
  · split
    · exact (dropWtSend h hk).2.1.st
    · rfl
  · split
    · rfl
    · rename_i s hs
      split
      · exact (removeSend_spec (setDone_inv h .done hs) id
          (by intro s e; have e' : get c.send id = _ := e; rw [hk] at e'; cases e')).2.1.st
      · rfl

theorem resetSend_st {q : Bool} {c : C} (h : Inv q c) (id code : Nat) :
    (resetSend c id code).1.st = c.st := by
  unfold resetSend
  split
  · rfl
  · exact (closeSend_spec h id _).2.1.st

theorem stopRecv_st {q : Bool} {c : C} (h : Inv q c) (id code : Nat) :
    (stopRecv c id code).1.st = c.st := by
  unfold stopRecv
  split
  · rfl
  · have := (closeRecv_spec h id (.app code)).2.1.st
    split
    · rename_i c1 e hq; rw [hq] at this; exact this
    · rename_i c1 hq; rw [hq] at this; exact this

theorem cancelFetch_st {q : Bool} {c : C} (h : Inv q c) (id code : Nat) :
    (cancelFetch c id code).1.st = c.st := by
  unfold cancelFetch
  split
  · rfl
  · split
    · rfl
    · exact resetSend_st h _ _
  · split
    · exact stopRecv_st h _ _
    · exact stopRecv_st h _ _
    · exact stopRecv_st h _ _
    · exact stopRecv_st h _ _
    · rfl
  · split
    · rfl
    · split
      · exact (stopRecv_st (resetSend_inv h id code) id code).trans (resetSend_st h id code)
      · rfl

theorem closeSending_st {q : Bool} {c : C} (h : Inv q c) (id : Nat) (now : Bool) :
    (closeSending c id now).1.st = c.st := by
  unfold closeSending
  split
  · split
    · rfl
    · rename_i k hk; exact finish_st h hk now
  · rfl

theorem endSession_st {q : Bool} {c : C} (h : Inv q c) (id : Nat) (udp now : Bool) :
    (endSession c id udp now).1.st = c.st := by
  unfold endSession
  split
  · rfl
  · split
    · rfl
    · split
      · rename_i k hk
        split
        · exact finish_st h hk now
        · rfl
      · rfl

theorem answer_st {q : Bool} {c : C} (h : Inv q c) (id : Nat) (a : Answer) :
    (answer c id a).1.st = c.st := by
  unfold answer
  split
  · rfl
  · exact cancelFetch_st h _ _
  · split
    · exact cancelFetch_st h _ _
    · rfl
  · split
    · rfl
    · split
      · exact closeSending_st h _ _
      · exact cancelFetch_st h _ _
      · rfl
      · have := cancelFetch_st h id rejected
        split
        · rename_i c1 e hq; rw [hq] at this; exact this
        · rename_i c1 hq; rw [hq] at this; exact this

theorem endWt_st (c : C) (id : Nat) (k : RK) (r : Read) : (endWt c id k r).st = c.st ∧
    (endWt c id k r).role = c.role := by
  unfold endWt
  split
  · exact ⟨(dropSubRecv_frame ..).st, (dropSubRecv_frame ..).role⟩
  · exact ⟨rfl, rfl⟩

theorem recvClosed_st (c : C) (id : Nat) (ct : CT) : (recvClosed c id ct).st = c.st ∧
    (recvClosed c id ct).role = c.role := by
  unfold recvClosed; split <;> exact ⟨rfl, rfl⟩

theorem sendClosed_st (c : C) (id : Nat) (ct : CT) : (sendClosed c id ct).st = c.st ∧
    (sendClosed c id ct).role = c.role := by
  unfold sendClosed; split <;> exact ⟨rfl, rfl⟩

theorem closeSession_st (c : C) (id : Nat) (ct : CT) : (closeSession c id ct).st = c.st ∧
    (closeSession c id ct).role = c.role := by
  unfold closeSession
  split
  · exact ⟨rfl, rfl⟩
  · split
    · exact ⟨rfl, rfl⟩
    · dsimp only; split <;> exact ⟨rfl, rfl⟩

theorem dropSubSend_st (c : C) (s id : Nat) : (dropSubSend c s id).st = c.st ∧
    (dropSubSend c s id).role = c.role := by
  unfold dropSubSend; split <;> exact ⟨rfl, rfl⟩

theorem dropSubRecv_st (c : C) (s id : Nat) : (dropSubRecv c s id).st = c.st ∧
    (dropSubRecv c s id).role = c.role := by
  unfold dropSubRecv; split <;> exact ⟨rfl, rfl⟩

theorem resetRecv_st (c : C) (id : Nat) (k : RK) (ct : CT) : (resetRecv c id k ct).1.st = c.st ∧
    (resetRecv c id k ct).1.role = c.role := by
  unfold resetRecv
  split
  all_goals first
    | exact ⟨rfl, rfl⟩
    | exact recvClosed_st _ _ _
    | exact closeSession_st _ _ _
    | skip
  dsimp only
  have h1 := dropSubRecv_st
  split
  · exact h1 _ _ _
  · exact ⟨(h1 _ _ _).1.trans (recvClosed_st _ _ _).1, (h1 _ _ _).2.trans (recvClosed_st _ _ _).2⟩

theorem stopSend_st (c : C) (id : Nat) (k : SK) (ct : CT) : (stopSend c id k ct).st = c.st ∧
    (stopSend c id k ct).role = c.role := by
  unfold stopSend
  split
  · split
    · exact ⟨rfl, rfl⟩
    · exact sendClosed_st _ _ _
  · split
    · exact ⟨rfl, rfl⟩
    · exact sendClosed_st _ _ _
  · exact closeSession_st _ _ _
  · exact ⟨(dropSubSend_st _ _ _).1.trans (sendClosed_st _ _ _).1,
      (dropSubSend_st _ _ _).2.trans (sendClosed_st _ _ _).2⟩

theorem cutRecv_st (c : C) (id : Nat) : (cutRecv c id).st = c.st ∧ (cutRecv c id).role = c.role := by
  unfold cutRecv
  dsimp only [C.emit]
  split
  · exact ⟨rfl, rfl⟩
  · exact resetRecv_st _ _ _ _

theorem cutSend_st (c : C) (id : Nat) : (cutSend c id).st = c.st ∧ (cutSend c id).role = c.role := by
  unfold cutSend
  dsimp only [C.emit]
  split
  · exact ⟨rfl, rfl⟩
  · exact stopSend_st _ _ _ _

theorem foldCut_st (f : C → Nat → C) (h : ∀ c i, (f c i).st = c.st ∧ (f c i).role = c.role)
    (l : List Nat) : ∀ c, (l.foldl f c).st = c.st ∧ (l.foldl f c).role = c.role := by
  induction l with
  | nil => exact fun _ => ⟨rfl, rfl⟩
  | cons a t ih => intro c; exact ⟨(ih _).1.trans (h c a).1, (ih _).2.trans (h c a).2⟩

theorem removeExt_st (c : C) (id : Nat) : (removeExt c id).st = c.st ∧
    (removeExt c id).role = c.role := by
  unfold removeExt
  split
  · exact ⟨rfl, rfl⟩
  · have h1 := foldCut_st _ cutSend_st
    have h2 := foldCut_st _ cutRecv_st
    exact ⟨(h1 _ _).1.trans (h2 _ _).1, (h1 _ _).2.trans (h2 _ _).2⟩

theorem removeRecv_st (c : C) (id : Nat) : (removeRecv c id).1.st = c.st ∧
    (removeRecv c id).1.role = c.role := by
  unfold removeRecv
  split
  · exact ⟨rfl, rfl⟩
  · dsimp only
    split
    · split
      · exact ⟨rfl, rfl⟩
      · dsimp only
        split
        · exact removeExt_st _ _
        · exact ⟨rfl, rfl⟩
    · exact ⟨rfl, rfl⟩

theorem closeRecv_st (c : C) (id : Nat) (ct : CT) : (closeRecv c id ct).1.st = c.st ∧
    (closeRecv c id ct).1.role = c.role := by
  have := removeRecv_st c id
  unfold closeRecv
  split
  · rename_i c1 hq; rw [hq] at this; exact this
  · rename_i c1 k hq; rw [hq] at this
    exact ⟨(resetRecv_st _ _ _ _).1.trans this.1, (resetRecv_st _ _ _ _).2.trans this.2⟩

theorem afterRead_st (c : C) (id : Nat) (o : Except Err (Output × Bool)) :
    (afterRead c id o).1.st = c.st ∧ (afterRead c id o).1.role = c.role := by
  unfold afterRead
  split
  · exact removeRecv_st _ _
  · exact ⟨rfl, rfl⟩
  · rename_i e
    split
    · have := closeRecv_st (c.emit (.stopSending id e.code)) id (.fault e.code)
      split
      · rename_i c1 e hq; rw [hq] at this; exact this
      · rename_i c1 hq; rw [hq] at this; exact this
    · exact ⟨rfl, rfl⟩

theorem readData_mv {c : C} (id : Nat) (r : Read) (h : c.role = .server → c.st.closedNow = false) :
    Mv c (readData c id r).1 := by
  unfold readData
  split
  · exact Or.inl rfl
  · rename_i k hk
    dsimp only
    have e1 := endWt_st c id k r
    generalize hc1 : endWt c id k r = c1 at e1 ⊢
    have fin : ∀ o : Except Err (Output × Bool),
        Mv c (match afterRead c1 id o with
          | (c, .ok _) => (c, none)
          | (c, .error e) => (if e.isConnection then closeWith c e.code else c, some e) :
            C × Option Err).1 := by
      intro o
      have e2 := afterRead_st c1 id o
      split
      · rename_i c2 w hq; rw [hq] at e2; exact Or.inl (e2.1.trans e1.1)
      · rename_i c2 w hq; rw [hq] at e2
        dsimp only at e2 ⊢
        split
        · refine Mv.after (e2.1.trans e1.1) (closeWith_mv _ ?_)
          intro hr
          rw [e2.1, e1.1]
          exact h (by rw [← e1.2, ← e2.2]; exact hr)
        · exact Or.inl (e2.1.trans e1.1)
    exact fin _

/-! ### Calls that open streams -/

theorem openStream_shape {q : Bool} {c : C} (h : Inv q c) (sid : Nat) (id : Option Nat)
    (hf : Fits q c (.openStream sid id)) :
    ((openStream c sid id).1 = c ∨ ∃ i, id = some i ∧ Track (c.emit (.opened i)) (openStream c sid id).1 ∧
      Keeps c (openStream c sid id).1) ∧ (openStream c sid id).1.st = c.st ∧
    ∀ e, (openStream c sid id).2 = .error e → e.isConnection = false ∧ e ≠ .panic := by
  unfold openStream
  split
  · exact ⟨Or.inl rfl, rfl, by intro e he; cases he; exact ⟨rfl, by intro e; cases e⟩⟩
  · rename_i s hs
    split
    · split
      · exact ⟨Or.inl rfl, rfl, by intro e he; cases he; exact ⟨rfl, by intro e; cases e⟩⟩
      · rename_i i
        obtain ⟨f1, f2, f3, _⟩ := hf
        have hst : (createStream (c.emit (.opened i)) sid s i true).1.st = c.st := by
          unfold createStream
          split
          · rfl
          · dsimp only
            have := (addStream_spec (c.emit (.opened i)) sid s i (getSession_some hs).2).2.2.1.st
            split <;> split <;> exact this
        have ht := createStream_track (c := c.emit (.opened i)) (id := i) true f1 hs
        have he : ∀ e, (createStream (c.emit (.opened i)) sid s i true).2 = some e →
            e.isConnection = false ∧ e ≠ .panic := by
          intro e
          unfold createStream
          split
          · intro e; cases e; exact ⟨rfl, by intro e; cases e⟩
          · intro e; cases e
        split
        · rename_i c1 e hq; rw [hq] at ht hst he
          exact ⟨Or.inr ⟨i, rfl, ht.1, ht.2⟩, hst, by intro e' h'; cases h'; exact he _ rfl⟩
        · rename_i c1 hq; rw [hq] at ht hst
          exact ⟨Or.inr ⟨i, rfl, ht.1, ht.2⟩, hst, by intro e' h'; cases h'⟩
    · exact ⟨Or.inl rfl, rfl, by intro e he; cases he; exact ⟨rfl, by intro e; cases e⟩⟩

theorem keepId_same {x : C × Except Err Nat}
    (h : ∀ e, x.2 = .error e → e.isConnection = false ∧ e ≠ .panic) : keepId x = x.1 := by
  unfold keepId
  split
  · rfl
  · exact absurd rfl (h _ rfl).2
  · rename_i e _ ; rw [(h e rfl).1]; rfl

/-- A step that opens stream `i`. -/
structure Opens (i : Nat) (c c' : C) : Prop where
  role : c'.role = c.role
  st : c'.st = c.st
  remote : c'.remote = c.remote
  log : c'.log = c.log ++ [.opened i]
  keeps : Keeps c c'
  neg : ∀ s, neg c' s ≤ neg c s + if s = i then 1 else 0
  state : c.st = .zeroRtt ∨ c.st = .connected

theorem put_keeps {c c' : C} {i : Nat} {k : RK} (hn : get c.recv i = none)
    (h : c'.recv = put c.recv i k) : Keeps c c' := by
  intro j x e _
  rw [h, get_put, if_neg]; exact e
  rintro rfl; rw [hn] at e; cases e

theorem request_shape {q : Bool} {c : C} (w : Req) (id : Option Nat) (bad : Option Err)
    (hf : Fits q c (.request w id bad)) :
    (request c w id bad).1 = c ∨ ∃ i, id = some i ∧ Opens i c (request c w id bad).1 := by
  unfold request
  rcases openBidi_spec c id with ⟨e1, e, e2⟩ | ⟨i, rfl, e, hst⟩
  · split
    · rename_i c1 x hq; rw [hq] at e1; exact Or.inl e1
    · rename_i c1 x hq; rw [hq] at e2; cases e2
  · obtain ⟨f1, f2, f3, f4⟩ := hf
    rw [e]
    dsimp only
    refine Or.inr ⟨i, rfl, ?_⟩
    split
    · exact ⟨rfl, rfl, rfl, rfl, Keeps.same rfl, fun s => Nat.le_add_right _ _, hst⟩
    · split
      · exact ⟨rfl, rfl, rfl, rfl, put_keeps f1 rfl, fun s => Nat.le_add_right _ _, hst⟩
      · exact ⟨rfl, rfl, rfl, rfl, put_keeps f1 rfl, fun s => Nat.le_add_right _ _, hst⟩

theorem createSession_shape {q : Bool} {c : C} (udp : Bool) (id : Option Nat) (bad : Option Err)
    (hf : Fits q c (.createSession udp id bad)) :
    (createSession c udp id bad).1 = c ∨ ∃ i, id = some i ∧ Opens i c (createSession c udp id bad).1 := by
  unfold createSession
  by_cases hn : (if udp then c.udpF else c.wtF) ≠ .negotiated
  · rw [if_pos hn]; exact Or.inl rfl
  · rw [if_neg hn]
    rcases openBidi_spec c id with ⟨e1, e, e2⟩ | ⟨i, rfl, e, hst⟩
    · split
      · rename_i c1 x hq; rw [hq] at e1; exact Or.inl e1
      · rename_i c1 x hq; rw [hq] at e2; cases e2
    · obtain ⟨f1, f2, f3, f4⟩ := hf
      rw [e]
      dsimp only
      refine Or.inr ⟨i, rfl, ?_⟩
      have N : ∀ s, neg ((c.emit (.opened i)).setSess i ⟨udp, .negotiating, false, [], [], []⟩) s ≤
          neg c s + if s = i then 1 else 0 := by
        intro s
        rw [neg_setSess]
        split
        · simp
        · exact Nat.le_refl _
      split
      · exact ⟨rfl, rfl, rfl, rfl, put_keeps f1 rfl, N, hst⟩
      · exact ⟨rfl, rfl, rfl, rfl, put_keeps f1 rfl, N, hst⟩

theorem keepId_after (x : C × Except Err Nat) :
    Track x.1 (keepId x) ∧ Safe x.1 (keepId x) ∧ (x.1.role = .client → Mv x.1 (keepId x)) := by
  unfold keepId
  split
  · exact ⟨Track.refl _, Or.inl (Keeps.refl _), fun _ => Or.inl rfl⟩
  · exact ⟨Track.setDead _, Or.inr (Or.inr rfl), fun _ => Or.inl rfl⟩
  · dsimp only
    split
    · exact ⟨(closeWith_track _ _).1, Or.inr (Or.inl (closeWith_track _ _).2),
        fun hr => closeWith_mv _ (fun e => by rw [hr] at e; cases e)⟩
    · exact ⟨Track.refl _, Or.inl (Keeps.refl _), fun _ => Or.inl rfl⟩

theorem Safe.before {a b c : C} (h : Keeps a b) (k : Safe b c) : Safe a c := by
  rcases k with k | k
  · exact Or.inl (h.trans k)
  · exact Or.inr k

/-! ### Steps -/

/-- Events after which the state moves on by the rules: no rejected 0-RTT, the handshake of a server
comes first, and a server's application does not read once the connection is closed. -/
def Orderly (c : C) : Ev → Prop
  | .zeroRttRejected => False
  | .state (.handshaking _) _ => c.st = .initializing
  | .readData _ _ => c.role = .server → c.st.closedNow = false
  | _ => True

/-- What a step that opens no stream and changes no 0-RTT settings does. -/
structure Small (c c' : C) (o : Prop) : Prop where
  track : Track c c'
  safe : Safe c c'
  forward : o → Forward c.st c'.st
  below : c.role = .client → Below c → Below c'

theorem Small.refl (c : C) (o : Prop) : Small c c o :=
  ⟨Track.refl _, Or.inl (Keeps.refl _), fun _ => Forward.refl _, fun _ h => h⟩

theorem Small.mv {c c' : C} {o : Prop} (t : Track c c' ∧ Safe c c')
    (m : (c.role = .client ∨ o) → Mv c c') : Small c c' o :=
  ⟨t.1, t.2, fun h => (m (Or.inr h)).forward, fun h => (m (Or.inl h)).below t.1 h⟩

theorem stateStep_order (c : C) (t : TSt) (uni : Option Nat) (hcl : c.st.closedNow = false) :
    (Orderly c (.state t uni) → Forward c.st (stateStep c t uni).st) ∧
    (c.role = .client → Below c → Below (stateStep c t uni)) := by
  have F : ∀ (c1 : C) (e : Err), c1.st.closedNow = false → Below c1 → Below (failWith c1 e) := by
    intro c1 e h1 h2
    rcases failWith_mv e (c := c1) (fun _ => h1) with h | ⟨h, _⟩
    · unfold failWith at h ⊢
      split
      · exact h2
      · rcases closeWith_track c1 _ with ⟨_, ho⟩; exact Below.over ho
      · rcases closeWith_track c1 _ with ⟨_, ho⟩; exact Below.over ho
    · exact Below.over h
  unfold stateStep stateChange
  cases t with
  | handshaking z =>
    by_cases hz : c.role = .server ∧ z = true
    · dsimp only
      rw [if_pos hz]
      constructor
      · intro ho
        have ho' : c.st = .initializing := ho
        unfold openOwn
        cases uni with
        | none =>
          dsimp only
          have := (failWith_mv (c := { c with st := .zeroRtt }) (.other 3) (fun _ => rfl)).forward
          refine Forward.trans ?_ this
          rw [ho']
          exact ⟨by simp [St.rank], fun _ _ e => by cases e⟩
        | some u =>
          show Forward c.st .zeroRtt
          rw [ho']
          exact ⟨by simp [St.rank], fun _ _ e => by cases e⟩
      · intro hr; rw [hr] at hz; exact absurd hz.1 (by simp)
    · dsimp only
      rw [if_neg hz]
      exact ⟨fun _ => Forward.refl _, fun _ h => h⟩
  | connected =>
    dsimp only
    split
    · rename_i c1 e hq
      split at hq
      · rename_i hs
        unfold openOwn at hq
        cases uni with
        | none =>
          cases hq
          exact ⟨fun _ => (failWith_mv _ (fun _ => hcl)).forward, fun _ hb => F _ _ hcl hb⟩
        | some u => cases hq
      · cases hq
      · cases hq
        exact ⟨fun _ => (failWith_mv _ (fun _ => hcl)).forward, fun _ hb => F _ _ hcl hb⟩
    · rename_i c1 hq
      have : c1.st = .connected ∧ c.st.rank ≤ 1 := by
        split at hq
        · rename_i hs
          unfold openOwn at hq
          cases uni with
          | none => cases hq
          | some u => cases hq; exact ⟨rfl, by rw [hs]; simp [St.rank]⟩
        · rename_i hs; cases hq; exact ⟨rfl, by rw [hs]; simp [St.rank]⟩
        · cases hq
      refine ⟨fun _ => ⟨?_, ?_⟩, fun _ _ => Below.of ?_⟩
      · show c.st.rank ≤ c1.st.rank
        rw [this.1]
        exact Nat.le_succ_of_le this.2
      · intro g g' e e'
        have e'' : c1.st = .goingAway g' := e'
        rw [this.1] at e''; cases e''
      · intro g e
        have e'' : c1.st = .goingAway g := e
        rw [this.1] at e''; cases e''
    · rename_i c1 hq
      split at hq
      · rename_i hs
        unfold openOwn at hq
        cases uni with
        | none => cases hq
        | some u => cases hq
      · cases hq
      · cases hq
  | closing r =>
    dsimp only
    by_cases ho : c.st.over = true
    · rw [if_pos ho]; exact ⟨fun _ => Forward.refl _, fun _ h => h⟩
    · rw [if_neg ho]
      exact ⟨fun _ => Forward.over (rank_open hcl) rfl, fun _ _ => Below.over rfl⟩
  | closed r =>
    dsimp only
    split
    · rename_i c1 e hq
      split at hq <;> cases hq
    · rename_i c1 hq
      split at hq
      · cases hq
      · cases hq
        exact ⟨fun _ => Forward.over (rank_open hcl) rfl, fun _ _ => Below.over rfl⟩
    · rename_i c1 hq
      split at hq
      · cases hq; exact ⟨fun _ => Forward.refl _, fun _ h => h⟩
      · cases hq
  | other => exact ⟨fun _ => Forward.refl _, fun _ h => h⟩

/-- Events that open streams or replace the settings. -/
def Ev.big : Ev → Bool
  | .request .. | .createSession .. | .openStream .. | .resume .. | .zeroRttRejected => true
  | _ => false

theorem step_small {q : Bool} {c : C} (h : Inv q c) (e : Ev) (hf : Fits q c e) (hb : e.big = false) :
    Small c (step c e) (Orderly c e) := by
  unfold step
  by_cases hd : c.dead = true
  · rw [if_pos hd]; exact Small.refl _ _
  rw [if_neg hd]
  have G : ∀ (c' : C) (o : Prop), (c.st.closedNow = false → Small c c' o) →
      Small c (if c.st.closedNow then c else c') o := by
    intro c' o hs
    by_cases hc : c.st.closedNow = true
    · rw [if_pos hc]; exact Small.refl _ _
    · rw [if_neg hc]; exact hs (by simpa using hc)
  cases e with
  | opened id =>
    refine G _ _ (fun hc => Small.mv ?_ (fun _ => Or.inl rfl))
    obtain ⟨p1, p2⟩ := putRecv_track c hf.1 .head rfl
    exact ⟨p1, Or.inl p2⟩
  | readable id i =>
    refine G _ _ (fun hc => ?_)
    obtain ⟨t1, t2⟩ := readable_track h id i hf
    obtain ⟨o1, o2, o3⟩ := readable_order h id i hf
    have hr := (readable_inv h id i hf).2.1
    obtain ⟨a, b⟩ := settle_track (x := readable c id i) t1 (fun _ => t2)
    refine ⟨a, b, fun _ => ?_, fun hrole hbe => ?_⟩
    · unfold settle
      split
      · rename_i c1 hq; rw [hq] at o1; exact o1
      · rename_i c1 e hq; rw [hq] at o1
        dsimp only at o1
        refine o1.trans ?_
        have hcl : c1.st.closedNow = false := by
          have := o3 hc
          rw [hq] at this; exact this
        exact (failWith_mv e (fun _ => hcl)).forward
    · have o2' := o2 hrole hbe
      unfold settle
      split
      · rename_i c1 hq; rw [hq] at o2'; exact o2'
      · rename_i c1 e hq; rw [hq] at o2' hr
        dsimp only at o2' hr
        exact (failWith_mv e (fun x => by rw [hr, hrole] at x; cases x)).below
          (failWith_track c1 e).1 (by rw [hr]; exact hrole) o2'
  | resetIn id code =>
    refine G _ _ (fun hc => Small.mv ?_ (fun _ => settle_mv (closeRecv_spec h id _).2.1.st hc))
    obtain ⟨a, b⟩ := closeRecv_track h id (.remote code)
    exact settle_track a b
  | stopIn id code =>
    refine G _ _ (fun hc => Small.mv ?_ (fun _ => settle_mv (handleStop_spec h id _).2.1.st hc))
    obtain ⟨a, b⟩ := handleStop_track h id code
    exact settle_track a (fun _ => b)
  | state t uni =>
    refine G _ _ (fun hc => ?_)
    obtain ⟨a, b⟩ := stateStep_track c t uni
    obtain ⟨x, y⟩ := stateStep_order c t uni hc
    exact ⟨a, b, x, y⟩
  | zeroRttRejected => cases hb
  | sent id o =>
    dsimp only
    split
    · rename_i ha
      have hc : c.st.closedNow = false := by
        cases hs : c.st with
        | closed r => rw [hs] at ha; cases ha
        | _ => rfl
      obtain ⟨a, b⟩ := sendOne_track h id o
      exact Small.mv (settle_track a (fun _ => b)) (fun _ => settle_mv (sendOne_st h id o) hc)
    · exact Small.refl _ _
  | resume s uni => cases hb
  | request w id bad => cases hb
  | createSession udp id bad => cases hb
  | answer id a =>
    dsimp only
    split
    · rename_i hr
      obtain ⟨x, y⟩ := answer_track h hr id a
      exact Small.mv (keep_track x y) (fun _ => keep_mv (Or.inl (answer_st h id a)))
    · exact Small.refl _ _
  | openStream sid id => cases hb
  | endSession id udp now =>
    obtain ⟨x, y⟩ := endSession_track h id udp now
    exact Small.mv (keep_track x y) (fun _ => keep_mv (Or.inl (endSession_st h id udp now)))
  | resetSend id code =>
    obtain ⟨x, y⟩ := resetSend_track h id code
    exact Small.mv (keep_track x y) (fun _ => keep_mv (Or.inl (resetSend_st h id code)))
  | stopRecv id code =>
    obtain ⟨x, y⟩ := stopRecv_track h id code
    exact Small.mv (keep_track x y) (fun _ => keep_mv (Or.inl (stopRecv_st h id code)))
  | cancel id code =>
    obtain ⟨x, y⟩ := cancelFetch_track h id code
    exact Small.mv (keep_track x y) (fun _ => keep_mv (Or.inl (cancelFetch_st h id code)))
  | closeSending id now =>
    obtain ⟨x, y⟩ := closeSending_track h id now
    exact Small.mv (keep_track x y) (fun _ => keep_mv (Or.inl (closeSending_st h id now)))
  | readData id r =>
    obtain ⟨x, y⟩ := readData_track h id r
    refine Small.mv (c' := keep (readData c id r)) ?_ ?_
    · unfold keep
      split
      · rename_i c1 hq; rw [hq] at x y
        exact ⟨x.trans (Track.setDead _), Or.inr (Or.inr rfl)⟩
      · rename_i c1 _ hq; rw [hq] at x y; exact ⟨x, y⟩
    · intro ho
      refine keep_mv (readData_mv id r ?_)
      intro hr
      rcases ho with ho | ho
      · rw [hr] at ho; cases ho
      · exact ho hr
  | sendGoaway id =>
    dsimp only
    split
    · exact Small.mv ⟨Track.emit _ _ rfl, Or.inl (Keeps.same rfl)⟩ (fun _ => Or.inl rfl)
    · exact Small.refl _ _
  | close code =>
    dsimp only
    split
    · rename_i hr
      exact Small.mv ⟨(closeWith_track c code).1, Or.inr (Or.inl (closeWith_track c code).2)⟩
        (fun _ => closeWith_mv _ (fun e => by rw [hr] at e; cases e))
    · exact Small.refl _ _

end Neqo.H3c
