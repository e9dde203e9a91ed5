import Verif.H3Conn.Track

/-! What every step leaves alone, continued: whole steps. -/

namespace Neqo.H3c

theorem Track.setSt (c : C) (s : St) : Track c { c with st := s } :=
  ⟨rfl, fun _ _ k h h' => ⟨k, h, h'⟩, fun _ _ k h h' => ⟨k, h, h'⟩, fun _ => Nat.le_refl _,
    fun _ => rfl, fun _ h => h, [], by simp⟩

theorem addStream_log (c : C) (sid : Nat) (s : Sess) (id : Nat) :
    ∃ l, (addStream c sid s id).log = c.log ++ l ∧ ∀ e ∈ l, e.tame = true := by
  unfold addStream
  by_cases ho : s.st.over = true
  · rw [if_pos ho]; exact ⟨[], by simp, by simp⟩
  · rw [if_neg ho]
    dsimp only
    by_cases hn : s.st = .negotiating
    · rw [if_pos (by split <;> split <;> exact hn)]
      exact ⟨[], by simp [C.setSess], by simp⟩
    · rw [if_neg (by split <;> split <;> exact hn)]
      by_cases hw : isOwn c.role id = true
      · rw [if_pos hw]; exact ⟨[], by simp [C.setSess], by simp⟩
      · rw [if_neg hw]
        exact ⟨[.sessionStream sid id], rfl, by
          intro e he; rw [List.mem_singleton] at he; rw [he]; rfl⟩

theorem addStream_neg {c : C} {sid : Nat} {s : Sess} (id : Nat) (h : get c.sess sid = some s) :
    NegLe c (addStream c sid s id) := by
  unfold addStream
  have fin : ∀ (c1 : C) (y : Sess), c1.sess = c.sess → y.st = s.st → NegLe c (c1.setSess sid y) := by
    intro c1 y e1 e2
    refine (NegLe.same e1).trans (NegLe.setSess (x := s) (by rw [e1]; exact h) ?_)
    intro e; rw [← e2]; exact e
  by_cases ho : s.st.over = true
  · rw [if_pos ho]; exact NegLe.refl _
  · rw [if_neg ho]
    dsimp only
    by_cases hn : s.st = .negotiating
    · rw [if_pos (by split <;> split <;> exact hn)]
      exact fin _ _ rfl (by split <;> split <;> rfl)
    · rw [if_neg (by split <;> split <;> exact hn)]
      split
      · exact fin _ _ rfl (by split <;> split <;> rfl)
      · exact fin _ _ rfl (by split <;> split <;> rfl)

theorem createStream_track {c : C} {sid : Nat} {s : Sess} {id : Nat} (own : Bool)
    (gr : get c.recv id = none) (hs : getSession c sid = some s) :
    Track c (createStream c sid s id own).1 ∧ Keeps c (createStream c sid s id own).1 := by
  obtain ⟨g1, g2⟩ := getSession_some hs
  unfold createStream
  split
  · exact ⟨Track.refl _, Keeps.refl _⟩
  · dsimp only
    obtain ⟨a1, a2, a3, a4⟩ := addStream_spec c sid s id g2
    obtain ⟨l, hl, ht⟩ := addStream_log c sid s id
    have hn := addStream_neg id g2
    generalize hc1 : addStream c sid s id = c1 at a1 a2 a3 a4 hl hn ⊢
    have t1 : Track c c1 := Track.of a3 ⟨l, hl, ht⟩ hn
      (fun i k h _ => by rw [a1] at h; exact h) (fun i k h _ => by rw [a2] at h; exact h)
    have k1 : Keeps c c1 := Keeps.same a1
    have t2 : ∀ c2 : C, Track c2 { c2 with send := put c2.send id (.wt sid) } := by
      intro c2
      refine ⟨rfl, fun _ i k h h' => ⟨k, h, h'⟩, ?_, fun _ => Nat.le_refl _, fun _ => rfl,
        fun _ h => h, [], by simp⟩
      intro _ i k h hr
      have h' : get (put c2.send id (SK.wt sid)) i = some k := h
      rw [get_put] at h'; split at h'
      · cases h'; cases hr
      · exact ⟨k, h', hr⟩
    generalize hc2 : (if (!isUni id || own) = true then
      { c1 with send := put c1.send id (.wt sid) } else c1 : C) = c2
    have h2 : Track c1 c2 ∧ c2.recv = c1.recv := by
      rw [← hc2]; split
      · exact ⟨t2 c1, rfl⟩
      · exact ⟨Track.refl _, rfl⟩
    split
    · obtain ⟨p1, p2⟩ := putRecv_track c2 (id := id) (by rw [h2.2, a1]; exact gr) (.wt sid) rfl
      exact ⟨(t1.trans h2.1).trans p1, (k1.trans (Keeps.same h2.2)).trans p2⟩
    · exact ⟨t1.trans h2.1, k1.trans (Keeps.same h2.2)⟩

/-! ### GOAWAY -/

theorem drain_track (c : C) : Track c (drain c) := by
  unfold drain
  generalize c.recv = l
  suffices H : ∀ (l : List (Nat × RK)) (c1 : C), Track c c1 →
      Track c (l.foldl (fun c p => match p.2 with
        | .session =>
          match get c.sess p.1 with
          | some s =>
            if !s.udp && !s.draining then
              (c.setSess p.1 { s with draining := true }).emit (.draining p.1)
            else c
          | none => c
        | _ => c) c1) from H l c (Track.refl _)
  intro l
  induction l with
  | nil => intro c1 h; exact h
  | cons p t ih =>
    intro c1 h
    refine ih _ ?_
    dsimp only
    split
    · split
      · rename_i s hs
        split
        · exact (h.trans (Track.setSess (y := { s with draining := true }) hs (fun e => e))).trans
            (Track.emit _ _ rfl)
        · exact h
      · exact h
    · exact h

theorem handleStop_track {q : Bool} {c : C} (h : Inv q c) (id code : Nat) :
    Track c (handleStop c id code).1 ∧ Keeps c (handleStop c id code).1 := by
  unfold handleStop
  split
  · exact ⟨Track.refl _, Keeps.refl _⟩
  · exact ⟨closeSend_track h id _, closeSend_keeps h id _⟩

theorem foldStop_track {q : Bool} (code : Nat) (l : List Nat) : ∀ {c : C}, Inv q c →
    let c' := l.foldl (fun c id => (handleStop c id code).1) c
    Track c c' ∧ Keeps c c' := by
  induction l with
  | nil => intro c h; exact ⟨Track.refl _, Keeps.refl _⟩
  | cons a t ih =>
    intro c h
    obtain ⟨h1, h2⟩ := handleStop_track h a code
    obtain ⟨h3, h4⟩ := ih (handleStop_spec h a code).1
    exact ⟨h1.trans h3, h2.trans h4⟩

theorem foldClose_track {q : Bool} (ct : CT) (l : List Nat) : ∀ {c : C}, Inv q c →
    (∀ i ∈ l, isUni i = false) →
    let c' := l.foldl (fun c id => (closeRecv c id ct).1) c
    Track c c' ∧ Keeps c c' := by
  induction l with
  | nil => intro c h _; exact ⟨Track.refl _, Keeps.refl _⟩
  | cons a t ih =>
    intro c h hl
    obtain ⟨h1, _⟩ := closeRecv_track h a ct
    obtain ⟨i1, _, s, _⟩ := closeRecv_spec h a ct
    obtain ⟨h3, h4⟩ := ih i1 (fun i hi => hl i (List.mem_cons_of_mem _ hi))
    refine ⟨h1.trans h3, (Keeps.cut s ?_).trans h4⟩
    intro k hk
    cases hc : k.critical with
    | false => rfl
    | true =>
      have := h.uni a k hk hc
      rw [hl a List.mem_cons_self] at this; cases this

theorem cutAbove_track {q : Bool} {c : C} (h : Inv q c) {g : Nat} (hg : isUni g = false) :
    Track c (cutAbove c g) ∧ Keeps c (cutAbove c g) := by
  unfold cutAbove
  dsimp only
  obtain ⟨h1, h2⟩ := foldStop_spec rejected ((c.send.map (·.1)).filter (idGte g)) h
  obtain ⟨t1, t2⟩ := foldStop_track rejected ((c.send.map (·.1)).filter (idGte g)) h
  obtain ⟨h3, h4⟩ := foldClose_track (.remote rejected)
    (((List.foldl (fun c id => (handleStop c id rejected).1) c
      ((c.send.map (·.1)).filter (idGte g))).recv.map (·.1)).filter (idGte g)) h1 (by
      intro i hi
      have := (List.mem_filter.mp hi).2
      unfold idGte at this
      rw [hg] at this
      simp only [Bool.and_eq_true, beq_iff_eq] at this
      exact this.2)
  exact ⟨t1.trans h3, t2.trans h4⟩

theorem handleGoaway_track {q : Bool} {c : C} (h : Inv q c) (g : Nat) :
    Track c (handleGoaway c g).1 ∧ Keeps c (handleGoaway c g).1 := by
  unfold handleGoaway
  split
  · exact ⟨Track.refl _, Keeps.refl _⟩
  · rename_i hb
    have hg : isUni g = false := by
      cases e : isUni g with
      | false => rfl
      | true => rw [e] at hb; simp at hb
    have K : ∀ s : St, Track c ((cutAbove (drain { c with st := s }) g).emit .goaway) ∧
        Keeps c ((cutAbove (drain { c with st := s }) g).emit .goaway) := by
      intro s
      obtain ⟨d1, d2⟩ := drain_spec { c with st := s }
      obtain ⟨e1, e2⟩ := cutAbove_track ((h.setSt s).of_base d2 d1) hg
      exact ⟨(((Track.setSt c s).trans (drain_track _)).trans e1).trans (Track.emit _ _ rfl),
        ((Keeps.same d2.recv).trans e2 : Keeps { c with st := s } _)⟩
    have K' : Track c ((cutAbove c g).emit .goaway) ∧ Keeps c ((cutAbove c g).emit .goaway) := by
      obtain ⟨e1, e2⟩ := cutAbove_track h hg
      exact ⟨e1.trans (Track.emit _ _ rfl), e2⟩
    split
    · exact K _
    · split
      · exact ⟨Track.refl _, Keeps.refl _⟩
      · exact K _
    · exact K'
    · exact K'
    · exact ⟨Track.refl _, Keeps.refl _⟩
    · exact ⟨Track.refl _, Keeps.refl _⟩

theorem clientFrames_track {q : Bool} (l : List Fr) : ∀ {c : C}, Inv q c →
    Track c (clientFrames c l).1 ∧ Keeps c (clientFrames c l).1 := by
  induction l with
  | nil => intro c h; exact ⟨Track.refl _, Keeps.refl _⟩
  | cons f t ih =>
    intro c h
    unfold clientFrames
    split
    · exact ih h
    · exact ⟨Track.refl _, Keeps.refl _⟩
    · rename_i g
      have hg := handleGoaway_track h g
      have hi := handleGoaway_inv h g
      split
      · rename_i c1 e hq; rw [hq] at hg; exact hg
      · rename_i c1 hq; rw [hq] at hg hi
        obtain ⟨a1, a2⟩ := ih hi.1
        exact ⟨hg.1.trans a1, hg.2.trans a2⟩
    all_goals exact ⟨Track.refl _, Keeps.refl _⟩

theorem serverFrames_track (l : List Fr) : ∀ c : C,
    Track c (serverFrames c l).1 ∧ Keeps c (serverFrames c l).1 := by
  induction l with
  | nil => intro c; exact ⟨Track.refl _, Keeps.refl _⟩
  | cons f t ih =>
    intro c
    unfold serverFrames
    split
    · exact ih c
    · exact ⟨Track.refl _, Keeps.refl _⟩
    · exact ⟨Track.refl _, Keeps.refl _⟩
    · rename_i id
      obtain ⟨a1, a2⟩ := ih (c.emit (.prio id))
      exact ⟨(Track.emit _ _ rfl).trans a1, a2⟩
    · rename_i id _
      split
      · exact ⟨Track.refl _, Keeps.refl _⟩
      · obtain ⟨a1, a2⟩ := ih (c.emit (.prio id))
        exact ⟨(Track.emit _ _ rfl).trans a1, a2⟩
    all_goals exact ⟨Track.refl _, Keeps.refl _⟩

/-! ### Events -/

theorem drop2_fst (x : C × Except Err Output) : (drop2 x).1 = x.1 := by
  unfold drop2; split <;> rfl

theorem newPush_track {q : Bool} {c : C} (h : Inv q c) {id : Nat} (gr : get c.recv id = none)
    (gs : get c.send id = none) (p : Nat) (i : In) :
    Track c (newPush c id p i).1 ∧ Keeps c (newPush c id p i).1 := by
  unfold newPush
  split
  · exact ⟨Track.refl _, Keeps.refl _⟩
  · exact ⟨Track.emit _ _ rfl, Keeps.same rfl⟩
  · have hi := h.putRecv gr gs (.push p) ⟨nofun, nofun⟩ nofun
    obtain ⟨p1, p2⟩ := putRecv_track c gr (.push p) rfl
    have := readableBase_track hi id i.second .pending i (by
      intro t _ e
      have e' : get (put c.recv id (RK.push p)) id = some .head := e
      rw [get_put, if_pos rfl] at e'; cases e')
    rw [drop2_fst]
    exact ⟨p1.trans this.1, p2.trans this.2⟩

theorem readable_track {q : Bool} {c : C} (h : Inv q c) (id : Nat) (i : In)
    (hf : Fits q c (.readable id i)) :
    Track c (readable c id i).1 ∧ Keeps c (readable c id i).1 := by
  have hb := readableBase_spec h id i.first i.second i (fun t e _ => (hf t e).1)
  have ht := readableBase_track h id i.first i.second i (fun t e _ => (hf t e).1)
  dsimp only at hb
  unfold readable
  split
  · rename_i c1 e hq; rw [hq] at ht; exact ht
  · rename_i c1 p hq; rw [hq] at hb ht
    obtain ⟨a1, a2, a3, a4, a5⟩ := hb
    obtain ⟨b1, b2, _⟩ := a5 _ rfl
    split
    · obtain ⟨x1, x2⟩ := newPush_track a1 b1 b2 p i
      exact ⟨ht.1.trans x1, ht.2.trans x2⟩
    · exact ht
  · rename_i c1 hq; rw [hq] at hb ht
    obtain ⟨a1, a2, a3, a4, a5⟩ := hb
    obtain ⟨b1, b2, _⟩ := a5 _ rfl
    split
    · exact ht
    · rename_i hrole
      dsimp only at a1 b1 b2
      have hi := a1.newHttp b1 b2 .http (.http false) (Or.inl ⟨rfl, rfl⟩)
      have hr := readableBase_track hi id i.second .pending i (by
        intro t _ e
        have e' : get (put c1.recv id RK.http) id = some .head := e
        rw [get_put, if_pos rfl] at e'; cases e')
      have t2 : Track c1 { c1 with send := put c1.send id (.http false), recv := put c1.recv id .http } :=
        ⟨rfl, fun e => (by rw [hrole] at e; cases e), fun e => (by rw [hrole] at e; cases e),
          fun _ => Nat.le_refl _, fun _ => rfl, fun _ h => h, [], by simp⟩
      have k2 : Keeps c1 { c1 with send := put c1.send id (.http false), recv := put c1.recv id .http } := by
        intro j k e hc
        show get (put c1.recv id .http) j = some k
        rw [get_put, if_neg]; exact e
        rintro rfl; rw [b1] at e; cases e
      rw [drop2_fst]
      exact ⟨(ht.1.trans t2).trans hr.1, (ht.2.trans k2).trans hr.2⟩
  · rename_i c1 s hq; rw [hq] at hb ht
    obtain ⟨a1, a2, a3, a4, a5⟩ := hb
    obtain ⟨b1, b2, b3, _, b5⟩ := a5 _ rfl
    obtain ⟨_, f2, f3⟩ := hf _ b3
    dsimp only at a1 a3 b1 b2 b5
    have hcr : Inv q (createRemote c1 s id).1 ∧ Track c1 (createRemote c1 s id).1 ∧
        Keeps c1 (createRemote c1 s id).1 := by
      unfold createRemote
      split
      · exact ⟨a1, Track.refl _, Keeps.refl _⟩
      · rename_i x hx
        refine ⟨(createStream_spec a1 false b1 b2 hx (by rw [a3]; exact f2) ?_).1,
          createStream_track false b1 hx⟩
        intro e
        refine f3 s x rfl ?_ e
        rw [← b5]; exact (getSession_some hx).2
    split
    · rename_i c2 e hq2; rw [hq2] at hcr
      exact ⟨ht.1.trans hcr.2.1, ht.2.trans hcr.2.2⟩
    · rename_i c2 hq2; rw [hq2] at hcr
      dsimp only at hcr
      have hnh : get c2.recv id ≠ some .head := by
        unfold createRemote at hq2
        split at hq2
        · cases hq2
        · rename_i x hx
          unfold createStream at hq2
          split at hq2
          · cases hq2
          · have g2 := (getSession_some hx).2
            obtain ⟨z1, z2, _, _⟩ := addStream_spec c1 s x id g2
            injection hq2 with hq2 _
            rw [← hq2]
            intro e
            split at e
            · have e' : get (put _ id (RK.wt s)) id = some .head := e
              rw [get_put, if_pos rfl] at e'; cases e'
            · split at e
              · have e' : get (addStream c1 s x id).recv id = some .head := e
                rw [z1, b1] at e'; cases e'
              · rw [z1, b1] at e; cases e
      have hr := readableBase_track hcr.1 id i.second .pending i (by
        intro t _ e; exact absurd e hnh)
      rw [drop2_fst]
      exact ⟨(ht.1.trans hcr.2.1).trans hr.1, (ht.2.trans hcr.2.2).trans hr.2⟩
  · rename_i c1 fs hq; rw [hq] at hb ht
    obtain ⟨a1, a2, a3, a4, a5⟩ := hb
    split
    · obtain ⟨x1, x2⟩ := clientFrames_track fs a1
      exact ⟨ht.1.trans x1, ht.2.trans x2⟩
    · obtain ⟨x1, x2⟩ := serverFrames_track fs c1
      exact ⟨ht.1.trans x1, ht.2.trans x2⟩
  · rename_i c1 o _ _ _ _ hq; rw [hq] at ht
    exact ht

/-- A connection without streams. -/
theorem Track.empty {c : C} (s : St) (code : Nat) :
    Track c ((({ c with st := s, send := [], recv := [], sess := [] } : C).emit (.closeConn code)).emit
      (.state s)) := by
  have t : Track c { c with st := s, send := [], recv := [], sess := [] } := by
    refine ⟨rfl, ?_, ?_, ?_, fun _ => rfl, fun _ h => h, [], by simp⟩
    · intro _ i k h; cases h
    · intro _ i k h; cases h
    · intro j
      show H3c.starts c j + 0 ≤ _
      omega
  exact (t.trans (Track.emit _ _ rfl)).trans (Track.emit _ _ rfl)

theorem closeWith_track (c : C) (code : Nat) :
    Track c (closeWith c code) ∧ (closeWith c code).st.over = true := by
  unfold closeWith
  split
  · split
    · rename_i h; exact ⟨Track.refl _, h⟩
    · exact ⟨Track.empty _ _, rfl⟩
  · exact ⟨Track.empty _ _, rfl⟩

theorem Track.setDead (c : C) : Track c { c with dead := true } :=
  ⟨rfl, fun _ _ k h h' => ⟨k, h, h'⟩, fun _ _ k h h' => ⟨k, h, h'⟩, fun _ => Nat.le_refl _,
    fun _ => rfl, fun _ h => h, [], by simp⟩

theorem failWith_track (c : C) (e : Err) :
    Track c (failWith c e) ∧ ((failWith c e).st.over = true ∨ (failWith c e).dead = true) := by
  unfold failWith
  split
  · exact ⟨Track.setDead c, Or.inr rfl⟩
  · exact ⟨(closeWith_track c _).1, Or.inl (closeWith_track c _).2⟩
  · exact ⟨(closeWith_track c _).1, Or.inl (closeWith_track c _).2⟩

/-- Critical streams stay, or the connection is over. -/
def Safe (c c' : C) : Prop := Keeps c c' ∨ c'.st.over = true ∨ c'.dead = true

theorem settle_track {c : C} {x : C × Option Err} (h : Track c x.1)
    (hk : x.2 = none → Keeps c x.1) : Track c (settle x) ∧ Safe c (settle x) := by
  unfold settle
  split
  · exact ⟨h, Or.inl (hk rfl)⟩
  · obtain ⟨a, b⟩ := failWith_track _ _
    exact ⟨h.trans a, Or.inr b⟩

theorem keep_track {c : C} {x : C × Option Err} (h : Track c x.1) (hk : Keeps c x.1) :
    Track c (keep x) ∧ Safe c (keep x) := by
  unfold keep
  split
  · exact ⟨h.trans (Track.setDead _), Or.inr (Or.inr rfl)⟩
  · exact ⟨h, Or.inl hk⟩

theorem openOwn_track (c : C) (uni : Option Nat) :
    Track c (openOwn c uni).1 ∧ (openOwn c uni).1.recv = c.recv := by
  unfold openOwn
  split
  · exact ⟨Track.refl _, rfl⟩
  · exact ⟨⟨rfl, fun _ _ k h h' => ⟨k, h, h'⟩, fun _ _ k h h' => ⟨k, h, h'⟩, fun _ => Nat.le_refl _,
      fun _ => rfl, fun _ h => h, [], by simp⟩, rfl⟩

theorem stateChange_track (c : C) (t : TSt) (uni : Option Nat) :
    Track c (stateChange c t uni).1 ∧ (stateChange c t uni).1.recv = c.recv := by
  unfold stateChange
  split
  · split
    · have := openOwn_track { c with st := .zeroRtt } uni
      split
      · rename_i c1 e hq; rw [hq] at this; exact ⟨(Track.setSt c _).trans this.1, this.2⟩
      · rename_i c1 hq; rw [hq] at this; exact ⟨(Track.setSt c _).trans this.1, this.2⟩
    · exact ⟨Track.refl _, rfl⟩
  · split
    · have := openOwn_track c uni
      split
      · rename_i c1 e hq; rw [hq] at this; exact this
      · rename_i c1 hq; rw [hq] at this; exact ⟨this.1.trans (Track.setSt _ _), this.2⟩
    · exact ⟨Track.setSt _ _, rfl⟩
    · exact ⟨Track.refl _, rfl⟩
  · split
    · exact ⟨Track.refl _, rfl⟩
    · exact ⟨Track.setSt _ _, rfl⟩
  · split
    · exact ⟨Track.refl _, rfl⟩
    · exact ⟨Track.setSt _ _, rfl⟩
  · exact ⟨Track.refl _, rfl⟩

theorem stateStep_track (c : C) (t : TSt) (uni : Option Nat) :
    Track c (stateStep c t uni) ∧ Safe c (stateStep c t uni) := by
  have := stateChange_track c t uni
  unfold stateStep
  split
  · rename_i c1 e hq; rw [hq] at this
    obtain ⟨a, b⟩ := failWith_track c1 e
    exact ⟨this.1.trans a, Or.inr b⟩
  · rename_i c1 hq; rw [hq] at this
    exact ⟨this.1.trans (Track.emit _ _ rfl), Or.inl (Keeps.same this.2)⟩
  · rename_i c1 hq; rw [hq] at this
    exact ⟨this.1, Or.inl (Keeps.same this.2)⟩

theorem dropWtSend_track {q : Bool} {c : C} (h : Inv q c) {id s : Nat}
    (hk : get c.send id = some (.wt s)) :
    Track c (removeSend (dropSubSend c s id) id).1 ∧
      Keeps c (removeSend (dropSubSend c s id) id).1 := by
  obtain ⟨_, f, r⟩ := dropWtSend h hk
  obtain ⟨l, hl, hp⟩ := f.log
  refine ⟨Track.of f.base ⟨l, hl, fun e he => plain_tame (hp e he)⟩
    ((dropSubSend_neg _ _ _).trans (removeSend_neg _ _)) ?_ ?_, Keeps.same r⟩
  · intro i k h _; rw [r] at h; exact h
  · intro i k hh _
    obtain ⟨t1, t2⟩ := dropSubSend_tables c s id
    have e : removeSend (dropSubSend c s id) id =
        ({ dropSubSend c s id with send := del (dropSubSend c s id).send id }, some (.wt s)) := by
      unfold removeSend
      rw [t2, hk]
      rfl
    rw [e] at hh
    have h' : get (del (dropSubSend c s id).send id) i = some k := hh
    rw [get_del, t2] at h'; split at h'
    · cases h'
    · exact h'

theorem rmSend {q : Bool} {c : C} (h : Inv q c) (id : Nat)
    (hw : ∀ s, get c.send id ≠ some (.wt s)) :
    Track c (removeSend c id).1 ∧ Keeps c (removeSend c id).1 :=
  ⟨removeSend_track h id hw, removeSend_keeps h id hw⟩

theorem setDone_track {c : C} {id : Nat} {s : Sess} (st : SSt) (hst : st ≠ .negotiating)
    (hs : get c.sess id = some s) :
    Track c (c.setSess id { s with st := st }) ∧ Keeps c (c.setSess id { s with st := st }) :=
  ⟨Track.setSess hs (fun e => absurd e hst), Keeps.same rfl⟩

theorem doneSend {q : Bool} {c : C} (h : Inv q c) {id : Nat} {f : Bool} {s : Sess}
    (hk : get c.send id = some (.session f)) (hs : get c.sess id = some s) :
    Track c (removeSend (c.setSess id { s with st := .done }) id).1 ∧
      Keeps c (removeSend (c.setSess id { s with st := .done }) id).1 := by
  obtain ⟨a, b⟩ := setDone_track (c := c) .done (by intro e; cases e) hs
  obtain ⟨x, y⟩ := rmSend (setDone_inv h .done hs) id
    (by intro s e; have e' : get c.send id = _ := e; rw [hk] at e'; cases e')
  exact ⟨a.trans x, b.trans y⟩

theorem sendOne_track {q : Bool} {c : C} (h : Inv q c) (id : Nat) (o : Sent) :
    Track c (sendOne c id o).1 ∧ Keeps c (sendOne c id o).1 := by
  unfold sendOne
  split
  · exact ⟨Track.refl _, Keeps.refl _⟩
  · rename_i k hk
    split
    · exact ⟨Track.refl _, Keeps.refl _⟩
    · split
      · dsimp only
        split
        · exact rmSend h id (by intro s e; rw [hk] at e; cases e)
        · exact ⟨Track.refl _, Keeps.refl _⟩
      · exact ⟨Track.refl _, Keeps.refl _⟩
    · split
      · dsimp only
        split
        · exact rmSend h id (by intro s e; rw [hk] at e; cases e)
        · exact ⟨Track.refl _, Keeps.refl _⟩
      · dsimp only
        split
        · exact rmSend h id (by intro s e; rw [hk] at e; cases e)
        · exact ⟨Track.refl _, Keeps.refl _⟩
      · exact dropWtSend_track h hk
      · split
        · exact ⟨Track.refl _, Keeps.refl _⟩
        · rename_i s hs
          split
          · exact doneSend h hk hs
          · dsimp only
            split
            · exact rmSend h id (by intro s e; rw [hk] at e; cases e)
            · exact ⟨Track.refl _, Keeps.refl _⟩

theorem retag_track {c : C} {id : Nat} {k : SK} (k' : SK) (hg : get c.send id = some k)
    (hk : k.req = true) :
    Track c { c with send := put c.send id k' } ∧ Keeps c { c with send := put c.send id k' } := by
  refine ⟨⟨rfl, fun _ i k h h' => ⟨k, h, h'⟩, ?_, fun _ => Nat.le_refl _, fun _ => rfl, fun _ h => h,
    [], by simp⟩, Keeps.same rfl⟩
  intro _ i x h hr
  have h' : get (put c.send id k') i = some x := h
  rw [get_put] at h'; split at h'
  · rename_i e; subst e; exact ⟨k, hg, hk⟩
  · exact ⟨x, h', hr⟩

theorem finish_track {q : Bool} {c : C} (h : Inv q c) {id : Nat} {k : SK}
    (hk : get c.send id = some k) (now : Bool) :
    Track c (finish c id k now) ∧ Keeps c (finish c id k now) := by
  unfold finish
  split
  · split
    · exact rmSend h id (by intro s e; rw [hk] at e; cases e)
    · exact retag_track _ hk rfl
  · split
    · exact rmSend h id (by intro s e; rw [hk] at e; cases e)
    · exact retag_track _ hk rfl
  · split
    · exact dropWtSend_track h hk
    · exact ⟨Track.refl _, Keeps.refl _⟩
  · split
    · exact ⟨Track.refl _, Keeps.refl _⟩
    · rename_i s hs
      split
      · exact doneSend h hk hs
      · obtain ⟨a, b⟩ := setDone_track (c := c) .finPending (by intro e; cases e) hs
        obtain ⟨x, y⟩ := retag_track (c := c.setSess id { s with st := .finPending }) (.session true)
          hk rfl
        exact ⟨a.trans x, b.trans y⟩

theorem resetSend_track {q : Bool} {c : C} (h : Inv q c) (id code : Nat) :
    Track c (resetSend c id code).1 ∧ Keeps c (resetSend c id code).1 := by
  unfold resetSend
  split
  · exact ⟨Track.refl _, Keeps.refl _⟩
  · exact ⟨(closeSend_track h id _).trans (Track.emit _ _ rfl), closeSend_keeps h id _⟩

theorem stopRecv_track {q : Bool} {c : C} (h : Inv q c) (id code : Nat) :
    Track c (stopRecv c id code).1 ∧ Keeps c (stopRecv c id code).1 := by
  unfold stopRecv
  split
  · exact ⟨Track.refl _, Keeps.refl _⟩
  · rename_i hcr
    have ht := (closeRecv_track h id (.app code)).1
    obtain ⟨_, _, s, _⟩ := closeRecv_spec h id (.app code)
    have hk : Keeps c (closeRecv c id (.app code)).1 := by
      refine Keeps.cut s ?_
      intro k hk
      unfold recvCritical at hcr
      rw [hk] at hcr
      simpa using hcr
    split
    · rename_i c1 e hq; rw [hq] at ht hk; exact ⟨ht, hk⟩
    · rename_i c1 hq; rw [hq] at ht hk; exact ⟨ht.trans (Track.emit _ _ rfl), hk⟩

theorem cancelFetch_track {q : Bool} {c : C} (h : Inv q c) (id code : Nat) :
    Track c (cancelFetch c id code).1 ∧ Keeps c (cancelFetch c id code).1 := by
  unfold cancelFetch
  split
  · exact ⟨Track.refl _, Keeps.refl _⟩
  · split
    · exact ⟨Track.refl _, Keeps.refl _⟩
    · exact resetSend_track h _ _
  · split
    · exact stopRecv_track h _ _
    · exact stopRecv_track h _ _
    · exact stopRecv_track h _ _
    · exact stopRecv_track h _ _
    · exact ⟨Track.refl _, Keeps.refl _⟩
  · split
    · exact ⟨Track.refl _, Keeps.refl _⟩
    · split
      · obtain ⟨a, b⟩ := resetSend_track h id code
        obtain ⟨x, y⟩ := stopRecv_track (resetSend_inv h id code) id code
        exact ⟨a.trans x, b.trans y⟩
      · exact ⟨Track.refl _, Keeps.refl _⟩

theorem closeSending_track {q : Bool} {c : C} (h : Inv q c) (id : Nat) (now : Bool) :
    Track c (closeSending c id now).1 ∧ Keeps c (closeSending c id now).1 := by
  unfold closeSending
  split
  · split
    · exact ⟨Track.refl _, Keeps.refl _⟩
    · rename_i k hk; exact finish_track h hk now
  · exact ⟨Track.refl _, Keeps.refl _⟩

theorem endSession_track {q : Bool} {c : C} (h : Inv q c) (id : Nat) (udp now : Bool) :
    Track c (endSession c id udp now).1 ∧ Keeps c (endSession c id udp now).1 := by
  unfold endSession
  split
  · exact ⟨Track.refl _, Keeps.refl _⟩
  · split
    · exact ⟨Track.refl _, Keeps.refl _⟩
    · split
      · rename_i k hk
        split
        · exact finish_track h hk now
        · exact ⟨Track.refl _, Keeps.refl _⟩
      · exact ⟨Track.refl _, Keeps.refl _⟩

theorem answer_track {q : Bool} {c : C} (h : Inv q c) (hr : c.role = .server) (id : Nat) (a : Answer) :
    Track c (answer c id a).1 ∧ Keeps c (answer c id a).1 := by
  unfold answer
  split
  · exact ⟨Track.refl _, Keeps.refl _⟩
  · exact cancelFetch_track h _ _
  · split
    · exact cancelFetch_track h _ _
    · exact ⟨Track.refl _, Keeps.refl _⟩
  · rename_i s r hs hrr
    split
    · exact ⟨Track.refl _, Keeps.refl _⟩
    · rename_i hrc
      have hrc' : r = .connect := by
        by_cases e : r = .connect
        · exact e
        · exact absurd e hrc
      subst hrc'
      split
      · exact closeSending_track h _ _
      · exact cancelFetch_track h _ _
      · rename_i udp
        refine ⟨⟨rfl, fun e => (by rw [hr] at e; cases e), fun e => (by rw [hr] at e; cases e), ?_,
          fun _ => rfl, fun _ h => h, [], by simp [C.setSess]⟩, ?_⟩
        · intro j
          have : neg (c.setSess id ⟨udp, .active, false, [], [], []⟩) j ≤ neg c j := by
            rw [neg_setSess]; split
            · simp
            · exact Nat.le_refl _
          show starts c j + neg (c.setSess id ⟨udp, .active, false, [], [], []⟩) j ≤ _
          omega
        · intro i k e hc
          show get (put c.recv id .session) i = some k
          rw [get_put, if_neg]; exact e
          rintro rfl; rw [hrr] at e; cases e; cases hc
      · have := cancelFetch_track h id rejected
        split
        · rename_i c1 e hq; rw [hq] at this; exact this
        · rename_i c1 hq; rw [hq] at this; exact this

theorem endWt_track (c : C) (id : Nat) (k : RK) (r : Read) :
    Track c (endWt c id k r) ∧ (endWt c id k r).recv = c.recv := by
  unfold endWt
  split
  · rename_i s
    obtain ⟨t1, t2⟩ := dropSubRecv_tables c s id
    have f := dropSubRecv_frame c s id
    obtain ⟨l, hl, hp⟩ := f.log
    exact ⟨Track.of f.base ⟨l, hl, fun e he => plain_tame (hp e he)⟩ (dropSubRecv_neg _ _ _)
      (fun i k h _ => by rw [t1] at h; exact h) (fun i k h _ => by rw [t2] at h; exact h), t1⟩
  · exact ⟨Track.refl _, rfl⟩

theorem readData_track {q : Bool} {c : C} (h : Inv q c) (id : Nat) (r : Read) :
    Track c (readData c id r).1 ∧ Safe c (readData c id r).1 := by
  unfold readData
  split
  · exact ⟨Track.refl _, Or.inl (Keeps.refl _)⟩
  · rename_i k hk
    dsimp only
    have fin : ∀ x : C × Except Err Output, Track c x.1 ∧ Keeps c x.1 →
        let y := (match x with
          | (c, .ok _) => (c, none)
          | (c, .error e) => (if e.isConnection then closeWith c e.code else c, some e) :
            C × Option Err).1
        Track c y ∧ Safe c y := by
      intro x hx
      dsimp only
      split
      · exact ⟨hx.1, Or.inl hx.2⟩
      · dsimp only
        split
        · obtain ⟨a, b⟩ := closeWith_track _ _
          exact ⟨hx.1.trans a, Or.inr (Or.inl b)⟩
        · exact ⟨hx.1, Or.inl hx.2⟩
    refine fin _ ?_
    by_cases hw : ∃ s, k = .wt s
    · obtain ⟨s, rfl⟩ := hw
      cases r with
      | ended =>
        obtain ⟨e1, e2⟩ := endWt_track c id (.wt s) .ended
        dsimp only [endWt] at e1 e2 ⊢
        obtain ⟨t1, t2⟩ := dropSubRecv_tables c s id
        have e : removeRecv (dropSubRecv c s id) id =
            ({ dropSubRecv c s id with recv := del (dropSubRecv c s id).recv id }, some (.wt s)) := by
          unfold removeRecv
          rw [t1, hk]
          rfl
        unfold afterRead
        dsimp only
        have hn := removeRecv_neg (dropSubRecv c s id) id
        rw [e] at hn ⊢
        refine ⟨e1.trans (Track.of (Frame.recv _ _).base ⟨[], by simp, by simp⟩ hn ?_
          (fun _ _ h _ => h)), ?_⟩
        · intro i k h _
          have h' : get (del (dropSubRecv c s id).recv id) i = some k := h
          rw [get_del] at h'; split at h'
          · cases h'
          · exact h'
        · intro i k h hc
          show get (del (dropSubRecv c s id).recv id) i = some k
          rw [get_del, if_neg, t1]; exact h
          rintro rfl; rw [hk] at h; cases h; cases hc
      | fail e => exact afterRead_track h _ (Or.inr ⟨e, Or.inl rfl⟩) (by intro w e; cases e)
      | _ =>
        exact afterRead_track h _ (Or.inr ⟨.panic, Or.inr ⟨_, rfl⟩⟩)
          (by intro w e; injection e with e; injection e with _ e; cases e)
    · have hw' : ∀ s, k ≠ .wt s := fun s e => hw ⟨s, e⟩
      have e : endWt c id k r = c := by
        unfold endWt
        split
        · exact absurd rfl (hw' _)
        · rfl
      rw [e]
      refine afterRead_track h _ (Or.inl ?_) ?_
      · intro s e'; rw [hk] at e'; cases e'; exact hw' s rfl
      · intro w e' k' hk'
        rw [hk] at hk'; cases hk'
        cases k <;> first | rfl | cases e'

end Neqo.H3c
