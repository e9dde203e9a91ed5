import Verif.H3Conn.Steps2

/-! What every step leaves alone: requests do not appear from nowhere, sessions start once, the
settings of the peer stay, critical streams stay. -/

namespace Neqo.H3c

/-- The kinds of handler a request has. -/
def RK.req : RK → Bool
  | .http | .connect | .session => true
  | _ => false

/-- The kinds of handler a request has on the sending side. -/
def SK.req : SK → Bool
  | .wt _ => false
  | _ => true

/-- How often the start of a session was announced. -/
def starts (c : C) (s : Nat) : Nat := c.log.count (.sessionStart s)

/-- How often a stream was opened by the application. -/
def opens (c : C) (s : Nat) : Nat := c.log.count (.opened s)

/-- 1 if a session is waiting for an answer. -/
def neg (c : C) (s : Nat) : Nat :=
  match get c.sess s with
  | some x => if x.st = .negotiating then 1 else 0
  | none => 0

/-- Effects that neither open streams nor start sessions. -/
def Eff.tame : Eff → Bool
  | .sessionStart _ | .opened _ => false
  | _ => true

theorem plain_tame {e : Eff} (h : e.plain = true) : e.tame = true := by
  cases e <;> first | rfl | cases h

theorem count_tame {l : List Eff} (h : ∀ e ∈ l, e.tame = true) (s : Nat) :
    l.count (.sessionStart s) = 0 ∧ l.count (.opened s) = 0 := by
  constructor
  · refine List.count_eq_zero.mpr ?_
    intro hm; have := h _ hm; cases this
  · refine List.count_eq_zero.mpr ?_
    intro hm; have := h _ hm; cases this

/-- Sessions do not begin to wait. -/
def NegLe (c c' : C) : Prop := ∀ s, neg c' s ≤ neg c s

theorem NegLe.refl (c : C) : NegLe c c := fun _ => Nat.le_refl _

theorem NegLe.trans {a b c : C} (h : NegLe a b) (k : NegLe b c) : NegLe a c :=
  fun s => Nat.le_trans (k s) (h s)

theorem NegLe.same {c c' : C} (h : c'.sess = c.sess) : NegLe c c' := by
  intro s; unfold neg; rw [h]; exact Nat.le_refl _

theorem neg_setSess (c : C) (id : Nat) (x : Sess) (j : Nat) :
    neg (c.setSess id x) j = if j = id then (if x.st = .negotiating then 1 else 0) else neg c j := by
  unfold neg C.setSess
  dsimp only
  rw [get_put]
  by_cases h : j = id
  · rw [if_pos h, if_pos h]
  · rw [if_neg h, if_neg h]

theorem NegLe.setSess {c : C} {id : Nat} {x y : Sess} (h : get c.sess id = some x)
    (hy : y.st = .negotiating → x.st = .negotiating) : NegLe c (c.setSess id y) := by
  intro s
  rw [neg_setSess]
  split
  · rename_i e
    unfold neg; rw [e, h]
    dsimp only
    split
    · rename_i e1; rw [if_pos (hy e1)]; exact Nat.le_refl _
    · exact Nat.zero_le _
  · exact Nat.le_refl _

/-- What every step up to the reading of a stream keeps. -/
structure Track (c c' : C) : Prop where
  role : c'.role = c.role
  reqR : c.role = .client → ∀ i k, get c'.recv i = some k → k.req = true →
    ∃ k', get c.recv i = some k' ∧ k'.req = true
  reqS : c.role = .client → ∀ i k, get c'.send i = some k → k.req = true →
    ∃ k', get c.send i = some k' ∧ k'.req = true
  starts : ∀ s, starts c' s + neg c' s ≤ starts c s + neg c s
  opens : ∀ s, opens c' s = opens c s
  remote : ∀ s, c.remote = .received s → c'.remote = .received s
  log : ∃ l, c'.log = c.log ++ l

theorem Track.refl (c : C) : Track c c :=
  ⟨rfl, fun _ _ k h h' => ⟨k, h, h'⟩, fun _ _ k h h' => ⟨k, h, h'⟩, fun _ => Nat.le_refl _,
    fun _ => rfl, fun _ h => h, [], by simp⟩

theorem Track.trans {a b c : C} (h : Track a b) (k : Track b c) : Track a c := by
  obtain ⟨l, hl⟩ := h.log
  obtain ⟨m, hm⟩ := k.log
  refine ⟨k.role.trans h.role, ?_, ?_, fun s => Nat.le_trans (k.starts s) (h.starts s),
    fun s => (k.opens s).trans (h.opens s), fun s e => k.remote s (h.remote s e), l ++ m,
    by rw [hm, hl, List.append_assoc]⟩
  · intro e i x hx hr
    obtain ⟨y, hy, hr'⟩ := k.reqR (by rw [h.role]; exact e) i x hx hr
    exact h.reqR e i y hy hr'
  · intro e i x hx hr
    obtain ⟨y, hy, hr'⟩ := k.reqS (by rw [h.role]; exact e) i x hx hr
    exact h.reqS e i y hy hr'

theorem Track.of {c c' : C} (b : Base c c') (hl : ∃ l, c'.log = c.log ++ l ∧ ∀ e ∈ l, e.tame = true)
    (hn : NegLe c c')
    (hr : ∀ i k, get c'.recv i = some k → k.req = true → get c.recv i = some k)
    (hs : ∀ i k, get c'.send i = some k → k.req = true → get c.send i = some k) : Track c c' := by
  obtain ⟨l, hl, ht⟩ := hl
  refine ⟨b.role, fun _ i k h h' => ⟨k, hr i k h h', h'⟩, fun _ i k h h' => ⟨k, hs i k h h', h'⟩,
    ?_, ?_, ?_, l, hl⟩
  · intro s
    have := (count_tame ht s).1
    unfold H3c.starts
    rw [hl, List.count_append, this]
    have := hn s
    omega
  · intro s
    have := (count_tame ht s).2
    unfold H3c.opens
    rw [hl, List.count_append, this]; rfl
  · intro s e; rw [b.remote]; exact e

theorem Track.still {c c' : C} (f : Frame c c') (s : Still c c') (hn : NegLe c c') : Track c c' := by
  obtain ⟨l, hl, hp⟩ := f.log
  exact Track.of f.base ⟨l, hl, fun e he => plain_tame (hp e he)⟩ hn
    (fun i k h _ => by rw [s.recv] at h; exact h) (fun i k h _ => by rw [s.send] at h; exact h)

theorem Track.cut {c c' : C} {id : Nat} (f : Frame c c') (s : Cut id c c') (hn : NegLe c c') :
    Track c c' := by
  obtain ⟨l, hl, hp⟩ := f.log
  refine Track.of f.base ⟨l, hl, fun e he => plain_tame (hp e he)⟩ hn ?_ ?_
  · intro i k h _
    by_cases hi : i = id
    · subst hi
      rcases s.idR with e | e
      · rw [e] at h; cases h
      · rw [e] at h; exact h
    · rcases s.recv i hi with e | ⟨_, e⟩
      · rw [e] at h; exact h
      · rw [e] at h; cases h
  · intro i k h _
    by_cases hi : i = id
    · subst hi
      rcases s.idS with e | e
      · rw [e] at h; cases h
      · rw [e] at h; exact h
    · rcases s.send i hi with e | ⟨_, e⟩
      · rw [e] at h; exact h
      · rw [e] at h; cases h

theorem Track.emit (c : C) (e : Eff) (h : e.tame = true) : Track c (c.emit e) :=
  Track.of (Base.emit _ _) ⟨[e], rfl, by intro x hx; rw [List.mem_singleton] at hx; rw [hx]; exact h⟩
    (NegLe.same rfl) (fun _ _ h _ => h) (fun _ _ h _ => h)

/-! ### Sessions do not begin to wait -/

theorem recvClosed_sess (c : C) (id : Nat) (ct : CT) : (recvClosed c id ct).sess = c.sess := by
  unfold recvClosed; split <;> rfl

theorem sendClosed_sess (c : C) (id : Nat) (ct : CT) : (sendClosed c id ct).sess = c.sess := by
  unfold sendClosed; split <;> rfl

theorem closeSession_neg (c : C) (id : Nat) (ct : CT) : NegLe c (closeSession c id ct) := by
  unfold closeSession
  split
  · exact NegLe.refl _
  · rename_i s hs
    split
    · exact NegLe.refl _
    · dsimp only
      have := NegLe.setSess (y := { s with st := .done }) hs (by intro e; cases e)
      split
      · exact this
      · exact this.trans (NegLe.same rfl)

theorem dropSubRecv_neg (c : C) (s id : Nat) : NegLe c (dropSubRecv c s id) := by
  unfold dropSubRecv
  split
  · exact NegLe.refl _
  · rename_i x hx; exact NegLe.setSess hx (fun e => e)

theorem dropSubSend_neg (c : C) (s id : Nat) : NegLe c (dropSubSend c s id) := by
  unfold dropSubSend
  split
  · exact NegLe.refl _
  · rename_i x hx; exact NegLe.setSess hx (fun e => e)

theorem resetRecv_neg (c : C) (id : Nat) (k : RK) (ct : CT) : NegLe c (resetRecv c id k ct).1 := by
  unfold resetRecv
  split
  all_goals first
    | exact NegLe.refl _
    | exact NegLe.same (recvClosed_sess ..)
    | exact closeSession_neg _ _ _
    | skip
  dsimp only
  refine NegLe.trans ?_ (dropSubRecv_neg _ _ _)
  split
  · exact NegLe.refl _
  · exact NegLe.same (recvClosed_sess ..)

theorem stopSend_neg (c : C) (id : Nat) (k : SK) (ct : CT) : NegLe c (stopSend c id k ct) := by
  unfold stopSend
  split
  · split
    · exact NegLe.refl _
    · exact NegLe.same (sendClosed_sess ..)
  · split
    · exact NegLe.refl _
    · exact NegLe.same (sendClosed_sess ..)
  · exact closeSession_neg _ _ _
  · exact NegLe.trans (NegLe.same (sendClosed_sess ..)) (dropSubSend_neg _ _ _)

theorem NegLe.emit {c d : C} (h : NegLe c d) (e : Eff) : NegLe c (d.emit e) :=
  h.trans (NegLe.same rfl)

theorem cutRecv_neg (c : C) (id : Nat) : NegLe c (cutRecv c id) := by
  unfold cutRecv
  dsimp only
  refine NegLe.emit ?_ _
  split
  · exact NegLe.refl _
  · exact NegLe.trans (NegLe.same rfl) (resetRecv_neg _ _ _ _)

theorem cutSend_neg (c : C) (id : Nat) : NegLe c (cutSend c id) := by
  unfold cutSend
  dsimp only
  refine NegLe.emit ?_ _
  split
  · exact NegLe.refl _
  · exact NegLe.trans (NegLe.same rfl) (stopSend_neg _ _ _ _)

theorem foldCut_neg (f : C → Nat → C) (h : ∀ c i, NegLe c (f c i)) (l : List Nat) :
    ∀ c, NegLe c (l.foldl f c) := by
  induction l with
  | nil => exact NegLe.refl
  | cons a t ih => intro c; exact (h c a).trans (ih _)

theorem removeExt_neg (c : C) (id : Nat) : NegLe c (removeExt c id) := by
  unfold removeExt
  split
  · exact NegLe.refl _
  · rename_i s hs
    exact ((NegLe.setSess hs (by intro e; exact e)).trans (foldCut_neg _ cutRecv_neg _ _)).trans
      (foldCut_neg _ cutSend_neg _ _)

theorem removeRecv_neg (c : C) (id : Nat) : NegLe c (removeRecv c id).1 := by
  unfold removeRecv
  split
  · exact NegLe.refl _
  · dsimp only
    split
    · split
      · exact NegLe.same rfl
      · dsimp only
        split
        · exact NegLe.trans (NegLe.same rfl) (removeExt_neg _ _)
        · exact NegLe.same rfl
    · exact NegLe.same rfl

theorem removeSend_neg (c : C) (id : Nat) : NegLe c (removeSend c id).1 := by
  unfold removeSend
  split
  · exact NegLe.refl _
  · dsimp only
    split
    · split
      · exact NegLe.same rfl
      · dsimp only
        split
        · exact NegLe.trans (NegLe.same rfl) (removeExt_neg _ _)
        · exact NegLe.same rfl
    · exact NegLe.same rfl

theorem closeRecv_neg (c : C) (id : Nat) (ct : CT) : NegLe c (closeRecv c id ct).1 := by
  unfold closeRecv
  have := removeRecv_neg c id
  split
  · rename_i c1 hq; rw [hq] at this; exact this
  · rename_i c1 k hq; rw [hq] at this; exact this.trans (resetRecv_neg _ _ _ _)

theorem closeSend_neg (c : C) (id : Nat) (ct : CT) : NegLe c (closeSend c id ct) := by
  unfold closeSend
  have := removeSend_neg c id
  split
  · rename_i c1 hq; rw [hq] at this; exact this
  · rename_i c1 k hq; rw [hq] at this; exact this.trans (stopSend_neg _ _ _ _)

/-- Critical streams stay. -/
def Keeps (c c' : C) : Prop :=
  ∀ i k, get c.recv i = some k → k.critical = true → get c'.recv i = some k

theorem Keeps.refl (c : C) : Keeps c c := fun _ _ h _ => h

theorem Keeps.trans {a b c : C} (h : Keeps a b) (k : Keeps b c) : Keeps a c :=
  fun i x e hx => k i x (h i x e hx) hx

theorem Keeps.same {c c' : C} (h : c'.recv = c.recv) : Keeps c c' := by
  intro i k e _; rw [h]; exact e

theorem Keeps.cut {c c' : C} {id : Nat} (s : Cut id c c')
    (h : ∀ k, get c.recv id = some k → k.critical = false) : Keeps c c' := by
  intro i k e hk
  by_cases hi : i = id
  · subst hi; rw [h k e] at hk; cases hk
  · rcases s.recv i hi with e' | ⟨⟨t, e'⟩, _⟩
    · rw [e']; exact e
    · rw [e] at e'; cases e'; cases hk

theorem closeRecv_track {q : Bool} {c : C} (h : Inv q c) (id : Nat) (ct : CT) :
    Track c (closeRecv c id ct).1 ∧
      ((closeRecv c id ct).2 = none → Keeps c (closeRecv c id ct).1) := by
  obtain ⟨_, f, s, _⟩ := closeRecv_spec h id ct
  refine ⟨Track.cut f s (closeRecv_neg c id ct), ?_⟩
  intro hn
  refine Keeps.cut s ?_
  intro k hk
  cases hc : k.critical with
  | false => rfl
  | true =>
    have e : closeRecv c id ct = ({ c with recv := del c.recv id }, some .closedCritical) := by
      unfold closeRecv removeRecv
      rw [hk]
      cases k <;> first | rfl | cases hc
    rw [e] at hn; cases hn

theorem closeSend_track {q : Bool} {c : C} (h : Inv q c) (id : Nat) (ct : CT) :
    Track c (closeSend c id ct) := by
  obtain ⟨_, f, s, _⟩ := closeSend_spec h id ct
  exact Track.cut f s (closeSend_neg c id ct)

/-- Removing the sending half does no harm to critical streams: they have none. -/
theorem noSend {q : Bool} {c : C} (h : Inv q c) {id : Nat} {k : RK} (hk : get c.recv id = some k)
    (hc : k.critical = true) : ∀ x, get c.send id = some x → x.ext = false := by
  intro x hx
  cases e : x.ext with
  | false => rfl
  | true =>
    obtain ⟨r, hr, he⟩ := h.ext id x hx e
    rw [hk] at hr; cases hr
    cases k <;> first | (cases he; done) | (cases hc; done)

theorem removeSend_keeps {q : Bool} {c : C} (h : Inv q c) (id : Nat)
    (hw : ∀ s, get c.send id ≠ some (.wt s)) : Keeps c (removeSend c id).1 := by
  obtain ⟨_, _, s, _, e⟩ := removeSend_spec h id hw
  cases hk : get c.send id with
  | none => unfold removeSend; rw [hk]; exact Keeps.refl _
  | some x =>
    cases hx : x.ext with
    | false => rw [e x hk hx]; exact Keeps.same rfl
    | true =>
      refine Keeps.cut s ?_
      intro k hr
      cases hc : k.critical with
      | false => rfl
      | true => have := noSend h hr hc x hk; rw [hx] at this; cases this

theorem closeSend_keeps {q : Bool} {c : C} (h : Inv q c) (id : Nat) (ct : CT) :
    Keeps c (closeSend c id ct) := by
  obtain ⟨_, _, s, _⟩ := closeSend_spec h id ct
  cases hk : get c.send id with
  | none =>
    have : closeSend c id ct = c := by unfold closeSend removeSend; rw [hk]
    rw [this]; exact Keeps.refl _
  | some x =>
    by_cases hw : ∃ t, x = .wt t
    · obtain ⟨t, rfl⟩ := hw
      rw [closeSend_wt ct hk]
      refine Keeps.same ?_
      rw [(dropSubSend_tables _ _ _).1]
      exact (sendClosed_spec _ id ct).2.recv
    · have hw' : ∀ t, get c.send id ≠ some (.wt t) := by
        intro t e; rw [hk] at e; cases e; exact hw ⟨t, rfl⟩
      have hr := removeSend_keeps h id hw'
      unfold closeSend
      split
      · rename_i c1 hq; rw [hq] at hr; exact hr
      · rename_i c1 y hq; rw [hq] at hr
        refine hr.trans (Keeps.same ?_)
        refine (stopSend_spec c1 id y ct ?_).2.recv
        rintro t rfl; exact hw' t (removeSend_some hq)

theorem removeSend_track {q : Bool} {c : C} (h : Inv q c) (id : Nat)
    (hw : ∀ s, get c.send id ≠ some (.wt s)) : Track c (removeSend c id).1 := by
  obtain ⟨_, f, s, _⟩ := removeSend_spec h id hw
  exact Track.cut f s (removeSend_neg c id)

/-! ### Reading -/

theorem announceAux_log (id : Nat) (l : List Nat) (c : C) :
    ∃ m, (l.foldl (fun c i => (c.emit (.sessionStream id i)).emit (.readable i)) c).log = c.log ++ m ∧
      ∀ e ∈ m, e.tame = true := by
  induction l generalizing c with
  | nil => exact ⟨[], by simp, by simp⟩
  | cons a t ih =>
    obtain ⟨m, hm, ht⟩ := ih ((c.emit (.sessionStream id a)).emit (.readable a))
    refine ⟨[.sessionStream id a, .readable a] ++ m, ?_, ?_⟩
    · rw [List.foldl_cons, hm]; unfold C.emit; simp
    · intro e he
      rcases List.mem_append.mp he with x | x
      · simp only [List.mem_cons, List.not_mem_nil, or_false] at x
        rcases x with rfl | rfl <;> rfl
      · exact ht e x

theorem Track.setSess {c : C} {id : Nat} {x y : Sess} (h : get c.sess id = some x)
    (hy : y.st = .negotiating → x.st = .negotiating) : Track c (c.setSess id y) :=
  Track.of (Frame.setSess ..).base ⟨[], by simp [C.setSess], by simp⟩ (NegLe.setSess h hy)
    (fun _ _ h _ => h) (fun _ _ h _ => h)

theorem checkHeaders_track {c : C} {id : Nat} {s : Sess} (h : get c.sess id = some s)
    (hd : Option Hdr) : Track c (checkHeaders c id s hd).1 := by
  unfold checkHeaders
  split
  · rename_i hneg
    split
    · exact Track.refl _
    · split
      · split
        · exact (Track.emit c _ rfl).trans (Track.setSess (x := s) h (by intro e; cases e))
        · exact Track.refl _
      · split
        · exact Track.refl _
        · split
          · split
            · exact (Track.emit c _ rfl).trans (Track.setSess (x := s) h (by intro e; cases e))
            · dsimp only
              obtain ⟨m, hm, ht⟩ := announceAux_log id s.pending (c.emit (.sessionStart id))
              obtain ⟨a1, a2, a3⟩ := announce_spec (c.emit (.sessionStart id)) id s
              have hlog : ((announce (c.emit (.sessionStart id)) id s).setSess id
                  { s with st := .active, pending := [] }).log = c.log ++ ([.sessionStart id] ++ m) := by
                show (announce (c.emit (.sessionStart id)) id s).log = _
                unfold announce
                rw [hm]; unfold C.emit; simp
              have b := (Base.emit c (.sessionStart id)).trans
                (a1.trans (Frame.setSess _ id { s with st := .active, pending := [] }).base)
              refine ⟨b.role, ?_, ?_, ?_, ?_, ?_, _, hlog⟩
              · intro _ i k hk hr
                refine ⟨k, ?_, hr⟩
                have : get (announce (c.emit (.sessionStart id)) id s).recv i = some k := hk
                rw [a2.recv] at this; exact this
              · intro _ i k hk hr
                refine ⟨k, ?_, hr⟩
                have : get (announce (c.emit (.sessionStart id)) id s).send i = some k := hk
                rw [a2.send] at this; exact this
              · intro j
                unfold H3c.starts
                rw [hlog, List.count_append, List.count_append, (count_tame ht j).1, neg_setSess]
                by_cases hj : j = id
                · subst hj
                  have hn : neg c j = 1 := by unfold neg; rw [h]; dsimp only; rw [if_pos hneg]
                  rw [if_pos rfl, hn]
                  simp
                · rw [if_neg hj]
                  have hn : neg (announce (c.emit (.sessionStart id)) id s) j = neg c j := by
                    unfold neg; rw [a3]; rfl
                  rw [hn]
                  have h0 : List.count (Eff.sessionStart j) [Eff.sessionStart id] = 0 := by
                    refine List.count_eq_zero.mpr ?_
                    intro hm; rw [List.mem_singleton] at hm; injection hm with hm; exact hj hm
                  rw [h0]; simp
              · intro j
                unfold H3c.opens
                rw [hlog, List.count_append, List.count_append, (count_tame ht j).2]
                rfl
              · intro s e; rw [b.remote]; exact e
          · exact (Track.emit c _ rfl).trans (Track.setSess (x := s) h (by intro e; cases e))
  · exact Track.refl _

theorem readControl_track (c : C) (id : Nat) (i : SIn) : Track c (readControl c id i).1 := by
  unfold readControl
  split
  · exact Track.refl _
  · rename_i s hs
    split
    · exact Track.refl _
    · split
      · refine (Track.emit c _ rfl).trans (Track.setSess (x := s) hs ?_)
        intro e
        dsimp only at e
        split at e <;> cases e
      · split
        · exact (Track.emit c _ rfl).trans (Track.setSess (x := s) hs (by intro e; cases e))
        · exact Track.refl _

theorem sessReceive_track (c : C) (id : Nat) (i : SIn) : Track c (sessReceive c id i).1 := by
  unfold sessReceive
  split
  · exact Track.refl _
  · rename_i s h
    split
    · exact Track.refl _
    · have hc := checkHeaders_track h i.hdr
      split
      · rename_i c1 e hq; rw [hq] at hc; exact hc
      · rename_i c1 hq; rw [hq] at hc
        have hr := readControl_track c1 id i
        split
        · rename_i c2 e hq2; rw [hq2] at hr; exact hc.trans hr
        · rename_i c2 hq2; rw [hq2] at hr; exact hc.trans hr

theorem readMessage_track (c : C) (id : Nat) (r : Read)
    (hc : ∀ k, get c.recv id = some k → k.critical = false) :
    Track c (readMessage c id r).1 ∧ Keeps c (readMessage c id r).1 := by
  unfold readMessage
  split
  · exact ⟨Track.refl _, Keeps.refl _⟩
  · exact ⟨Track.refl _, Keeps.refl _⟩
  · split
    · exact ⟨Track.refl _, Keeps.refl _⟩
    · rename_i hs
      split
      · refine ⟨⟨rfl, ?_, ?_, fun _ => Nat.le_refl _, fun _ => rfl, fun _ h => h, [], by simp⟩, ?_⟩
        · intro e; rw [hs] at e; cases e
        · intro e; rw [hs] at e; cases e
        · intro i k e hk
          show get (put c.recv id .connect) i = some k
          rw [get_put]; split
          · rename_i ei; subst ei; rw [hc k e] at hk; cases hk
          · exact e
      · exact ⟨Track.refl _, Keeps.refl _⟩
  · exact ⟨Track.refl _, Keeps.refl _⟩

theorem receive_track {c : C} {id : Nat} {k : RK} (hg : get c.recv id = some k) (r : Read) :
    Track c (receive c id k r).1 ∧ Keeps c (receive c id k r).1 := by
  cases k with
  | head => unfold receive; dsimp only; split <;> exact ⟨Track.refl _, Keeps.refl _⟩
  | control => unfold receive; dsimp only; split <;> exact ⟨Track.refl _, Keeps.refl _⟩
  | decoder => unfold receive; dsimp only; split <;> exact ⟨Track.refl _, Keeps.refl _⟩
  | encoder => unfold receive; dsimp only; split <;> exact ⟨Track.refl _, Keeps.refl _⟩
  | http | push | connect =>
    exact readMessage_track c id r (by intro k e; rw [hg] at e; cases e; rfl)
  | session =>
    unfold receive
    dsimp only
    split
    · rename_i i
      have hm := sessReceive_track c id i
      have hs := sessReceive_spec c id i
      split
      · rename_i c1 e hq; rw [hq] at hm hs; exact ⟨hm, Keeps.same hs.2.recv⟩
      · rename_i c1 d hq; rw [hq] at hm hs; exact ⟨hm, Keeps.same hs.2.recv⟩
    · exact ⟨Track.refl _, Keeps.refl _⟩
  | wt s =>
    unfold receive
    dsimp only
    split
    · exact ⟨Track.emit _ _ rfl, Keeps.same rfl⟩
    · exact ⟨Track.refl _, Keeps.refl _⟩

theorem afterRead_track {q : Bool} {c : C} (h : Inv q c) {id : Nat} (o : Except Err (Output × Bool))
    (hk : (∀ s, get c.recv id ≠ some (.wt s)) ∨ ∃ e, o = .error e ∨ ∃ w, o = .ok (w, false))
    (hd : ∀ w, o = .ok (w, true) → ∀ k, get c.recv id = some k → k.critical = false) :
    Track c (afterRead c id o).1 ∧ Keeps c (afterRead c id o).1 := by
  unfold afterRead
  split
  · rename_i w
    have hk' : ∀ s, get c.recv id ≠ some (.wt s) := by
      rcases hk with hk | ⟨e, hk | ⟨w, hk⟩⟩
      · exact hk
      · cases hk
      · injection hk with hk; injection hk with _ hk; cases hk
    obtain ⟨_, f, s, _⟩ := removeRecv_spec h id hk'
    exact ⟨Track.cut f s (removeRecv_neg c id), Keeps.cut s (hd w rfl)⟩
  · exact ⟨Track.refl _, Keeps.refl _⟩
  · rename_i e
    split
    · rename_i hcr
      have hcr' : recvCritical c id = false := by
        cases hx : recvCritical c id with
        | false => rfl
        | true => rw [hx] at hcr; simp at hcr
      have hm := closeRecv_track (h.emit (.stopSending id e.code)) id (.fault e.code)
      obtain ⟨_, _, s, _⟩ := closeRecv_spec (h.emit (.stopSending id e.code)) id (.fault e.code)
      have hkeep : Keeps c (closeRecv (c.emit (.stopSending id e.code)) id (.fault e.code)).1 := by
        refine Keeps.trans (Keeps.same (c := c) (c' := c.emit (.stopSending id e.code)) rfl)
          (Keeps.cut s ?_)
        intro k hk
        have hk' : get c.recv id = some k := hk
        unfold recvCritical at hcr'
        rw [hk'] at hcr'; exact hcr'
      split
      · rename_i c1 e1 hq; rw [hq] at hm hkeep
        exact ⟨(Track.emit _ _ rfl).trans hm.1, hkeep⟩
      · rename_i c1 hq; rw [hq] at hm hkeep
        exact ⟨(Track.emit _ _ rfl).trans hm.1, hkeep⟩
    · exact ⟨Track.refl _, Keeps.refl _⟩

/-- Critical handlers are never done. -/
theorem receive_critical {c : C} {id : Nat} {k : RK} (hk : k.critical = true) (r : Read) (w : Output) :
    (receive c id k r).2 ≠ .ok (w, true) := by
  intro e
  cases k with
  | control =>
    unfold receive at e; dsimp only at e
    split at e <;> first | cases e | (injection e with e; injection e with _ e; cases e)
  | decoder =>
    unfold receive at e; dsimp only at e
    split at e <;> first | cases e | (injection e with e; injection e with _ e; cases e)
  | encoder =>
    unfold receive at e; dsimp only at e
    split at e <;> first | cases e | (injection e with e; injection e with _ e; cases e)
  | _ => cases hk

theorem receive_critical_same {c : C} {id : Nat} {k : RK} (hk : k.critical = true) (r : Read) :
    (receive c id k r).1 = c := by
  cases k with
  | control => unfold receive; dsimp only; split <;> rfl
  | decoder => unfold receive; dsimp only; split <;> rfl
  | encoder => unfold receive; dsimp only; split <;> rfl
  | _ => cases hk

/-- The kind of a stream after reading it is critical only if it was before. -/
theorem receive_crit {c : C} {id : Nat} {k k' : RK} (hg : get c.recv id = some k) (r : Read)
    (h : get (receive c id k r).1.recv id = some k') (hc : k'.critical = true) :
    k = k' := by
  have key : ∀ c1 : C, c1.recv = c.recv → get c1.recv id = some k' → k = k' := by
    intro c1 e h; rw [e, hg] at h; cases h; rfl
  have hm : ∀ r, get (readMessage c id r).1.recv id = some k' → k = k' := by
    intro r h
    unfold readMessage at h
    split at h
    · exact key _ rfl h
    · exact key _ rfl h
    · split at h
      · exact key _ rfl h
      · split at h
        · have h' : get (put c.recv id RK.connect) id = some k' := h
          rw [get_put, if_pos rfl] at h'; cases h'; cases hc
        · exact key _ rfl h
    · exact key _ rfl h
  cases k with
  | head => unfold receive at h; dsimp only at h; split at h <;> exact key _ rfl h
  | control => unfold receive at h; dsimp only at h; split at h <;> exact key _ rfl h
  | decoder => unfold receive at h; dsimp only at h; split at h <;> exact key _ rfl h
  | encoder => unfold receive at h; dsimp only at h; split at h <;> exact key _ rfl h
  | http => exact hm r h
  | push p => exact hm r h
  | connect => exact hm r h
  | session =>
    unfold receive at h
    dsimp only at h
    split at h
    · rename_i i
      have hs := sessReceive_spec c id i
      split at h
      · rename_i c1 e hq; rw [hq] at hs; exact key _ hs.2.recv h
      · rename_i c1 d hq; rw [hq] at hs; exact key _ hs.2.recv h
    · exact key _ rfl h
  | wt s =>
    unfold receive at h
    dsimp only at h
    split at h
    · exact key _ rfl h
    · exact key _ rfl h

/-- Reading and what follows. -/
theorem readOne_track {q : Bool} {c : C} (h : Inv q c) {id : Nat} {k : RK}
    (hg : get c.recv id = some k) (r : Read) :
    Track c (afterRead (receive c id k r).1 id (receive c id k r).2).1 ∧
      Keeps c (afterRead (receive c id k r).1 id (receive c id k r).2).1 := by
  obtain ⟨h1, h2, h3, h4, h5⟩ := receive_spec h hg r
  obtain ⟨t1, t2⟩ := receive_track hg r
  have hk : (∀ s, get (receive c id k r).1.recv id ≠ some (.wt s)) ∨
      ∃ e, (receive c id k r).2 = .error e ∨ ∃ w, (receive c id k r).2 = .ok (w, false) := by
    by_cases hw : ∃ s, k = .wt s
    · obtain ⟨s, rfl⟩ := hw
      exact Or.inr ⟨.panic, Or.inr ⟨_, h3 s rfl⟩⟩
    · exact Or.inl (h4 (fun s e => hw ⟨s, e⟩))
  obtain ⟨a1, a2⟩ := afterRead_track h1 (receive c id k r).2 hk (by
    intro w hw k' hk'
    cases hc : k'.critical with
    | false => rfl
    | true =>
      have := receive_crit hg r hk' hc
      subst this
      exact absurd hw (receive_critical hc r w))
  exact ⟨t1.trans a1, t2.trans a2⟩

theorem streamReceive_track {q : Bool} {c : C} (h : Inv q c) (id : Nat) (r : Read) :
    Track c (streamReceive c id r).1 ∧ Keeps c (streamReceive c id r).1 := by
  unfold streamReceive
  split
  · exact ⟨Track.refl _, Keeps.refl _⟩
  · rename_i k hg
    exact readOne_track h hg r

theorem unblocked_track {q : Bool} (un : Nat → Read) (l : List Nat) :
    ∀ {c : C}, Inv q c → Track c (unblocked c un l).1 ∧ Keeps c (unblocked c un l).1 := by
  induction l with
  | nil => intro c h; exact ⟨Track.refl _, Keeps.refl _⟩
  | cons id t ih =>
    intro c h
    unfold unblocked
    split
    · exact ih h
    · rename_i k hg
      split
      · dsimp only
        have ht := readOne_track h hg (un id)
        obtain ⟨h1, h2, h3, h4, h5⟩ := receive_spec h hg (un id)
        have hk : (∀ s, get (receive c id k (un id)).1.recv id ≠ some (.wt s)) ∨
            ∃ e, (receive c id k (un id)).2 = .error e ∨
              ∃ w, (receive c id k (un id)).2 = .ok (w, false) := by
          by_cases hw : ∃ s, k = .wt s
          · obtain ⟨s, rfl⟩ := hw
            exact Or.inr ⟨.panic, Or.inr ⟨_, h3 s rfl⟩⟩
          · exact Or.inl (h4 (fun s e => hw ⟨s, e⟩))
        have ha := afterRead_spec h1 (receive c id k (un id)).2 hk
        split
        · rename_i c1 e hq; rw [hq] at ht; exact ht
        · rename_i c1 o hq; rw [hq] at ht ha
          have := ih ha.1
          exact ⟨ht.1.trans this.1, ht.2.trans this.2⟩
      · exact ⟨Track.refl _, Keeps.refl _⟩

/-! ### Control frames -/

theorem Quiet.track {c c' : C} (h : Quiet c c')
    (hr : ∀ s, c.remote = .received s → c'.remote = .received s) : Track c c' ∧ Keeps c c' := by
  obtain ⟨l, hl, hp⟩ := h.log
  have ht : ∀ e ∈ l, e.tame = true := by
    intro e he; obtain ⟨u, o, rfl⟩ := hp e he; rfl
  refine ⟨⟨h.role, ?_, ?_, ?_, ?_, hr, l, hl⟩, Keeps.same h.recv⟩
  · intro _ i k hk hr; rw [h.recv] at hk; exact ⟨k, hk, hr⟩
  · intro _ i k hk hr; rw [h.send] at hk; exact ⟨k, hk, hr⟩
  · intro s
    unfold H3c.starts neg
    rw [hl, List.count_append, (count_tame ht s).1, h.sess]; simp
  · intro s
    unfold H3c.opens
    rw [hl, List.count_append, (count_tame ht s).2]; simp

theorem handleSettings_received {c : C} {s : Sets} (h : c.remote = .received s) (x : Sets) (tp : Bool) :
    handleSettings c x tp = (c, some .frameUnexpected) := by
  unfold handleSettings; rw [h]

theorem controlFrame_received {c : C} {s : Sets} (h : c.remote = .received s) (tp : Bool) (f : Fr) :
    (controlFrame c tp f).1 = c ∧ (controlFrame c tp f).2 =
      match f with
      | .settings _ | .other => .error .frameUnexpected
      | f => .ok (some f) := by
  unfold controlFrame
  cases f <;> dsimp only
  case settings x => rw [handleSettings_received h]; exact ⟨rfl, rfl⟩
  all_goals rw [h]; exact ⟨rfl, rfl⟩

theorem controlFrames_received {s : Sets} (tp : Bool) (l : List Fr) :
    ∀ {c : C}, c.remote = .received s → (controlFrames c tp l).1 = c := by
  induction l with
  | nil => intro c h; rfl
  | cons f t ih =>
    intro c h
    unfold controlFrames
    obtain ⟨e1, e2⟩ := controlFrame_received h tp f
    split
    · rename_i c1 e hq; rw [hq] at e1; exact e1
    · rename_i c1 o hq; rw [hq] at e1; dsimp only at e1; subst e1
      have := ih h
      split
      · rename_i c2 e hq2; rw [hq2] at this; exact this
      · rename_i c2 o hq2; rw [hq2] at this; exact this

theorem controlFrames_track (c : C) (tp : Bool) (l : List Fr) :
    Track c (controlFrames c tp l).1 ∧ Keeps c (controlFrames c tp l).1 := by
  refine (controlFrames_quiet tp l c).track ?_
  intro s h; rw [controlFrames_received tp l h]; exact h

/-! ### New streams -/

theorem putRecv_track (c : C) {id : Nat} (gr : get c.recv id = none) (k : RK) (hk : k.req = false) :
    Track c { c with recv := put c.recv id k } ∧ Keeps c { c with recv := put c.recv id k } := by
  refine ⟨⟨rfl, ?_, fun _ i k h h' => ⟨k, h, h'⟩, fun _ => Nat.le_refl _, fun _ => rfl, fun _ h => h,
    [], by simp⟩, ?_⟩
  · intro _ i k' h hr
    have h' : get (put c.recv id k) i = some k' := h
    rw [get_put] at h'; split at h'
    · cases h'; rw [hk] at hr; cases hr
    · exact ⟨k', h', hr⟩
  · intro i k' h hc
    show get (put c.recv id k) i = some k'
    rw [get_put, if_neg]; exact h
    rintro rfl; rw [gr] at h; cases h

theorem newStream_track {q : Bool} {c : C} (h : Inv q c) {id : Nat} (gr : get c.recv id = none)
    (gs : get c.send id = none) (t : NewType) (ht : TypeFits id t = true) (r : Read) :
    Track c (newStream c t id r).1 ∧ Keeps c (newStream c t id r).1 := by
  have crit : ∀ k : RK, k.req = false → (k ≠ .session ∧ ∀ s, k ≠ .wt s) → isUni id = true →
      hasKind c k = false →
      let x := streamReceive { c with recv := put c.recv id k } id r
      Track c x.1 ∧ Keeps c x.1 := by
    intro k hh hk hu hf
    have hi := h.putRecv gr gs k hk (fun _ => ⟨hu, hasKind_false hf⟩)
    obtain ⟨a1, a2⟩ := streamReceive_track hi id r
    obtain ⟨b1, b2⟩ := putRecv_track c gr k hh
    exact ⟨b1.trans a1, b2.trans a2⟩
  cases t with
  | control =>
    unfold newStream
    dsimp only
    split
    · exact ⟨Track.refl _, Keeps.refl _⟩
    · rename_i hf
      exact crit .control rfl ⟨nofun, nofun⟩ ht (by simpa using hf)
  | decoder =>
    unfold newStream
    dsimp only
    split
    · exact ⟨Track.refl _, Keeps.refl _⟩
    · rename_i hf
      exact crit .decoder rfl ⟨nofun, nofun⟩ ht (by simpa using hf)
  | encoder =>
    unfold newStream
    dsimp only
    split
    · exact ⟨Track.refl _, Keeps.refl _⟩
    · rename_i hf
      exact crit .encoder rfl ⟨nofun, nofun⟩ ht (by simpa using hf)
  | push p => exact ⟨Track.refl _, Keeps.refl _⟩
  | http => exact ⟨Track.refl _, Keeps.refl _⟩
  | unknown => exact ⟨Track.emit _ _ rfl, Keeps.same rfl⟩
  | wt s =>
    unfold newStream
    dsimp only
    split
    · split
      · exact ⟨Track.refl _, Keeps.refl _⟩
      · exact ⟨Track.emit _ _ rfl, Keeps.same rfl⟩
    · exact ⟨Track.emit _ _ rfl, Keeps.same rfl⟩

theorem handleOutput_track {q : Bool} {c : C} (h : Inv q c) (i : In) (o : Output) :
    Track c (handleOutput c i o).1 ∧ Keeps c (handleOutput c i o).1 := by
  unfold handleOutput
  split
  · rename_i ids
    have := unblocked_track i.un ids h
    split
    · rename_i c1 e hq; rw [hq] at this; exact this
    · rename_i c1 hq; rw [hq] at this; exact this
  · rename_i fs
    have := controlFrames_track c i.tp fs
    split
    · rename_i c1 e hq; rw [hq] at this; exact this
    · rename_i c1 r hq; rw [hq] at this; exact this
  · exact ⟨Track.refl _, Keeps.refl _⟩

theorem readableBase_track {q : Bool} {c : C} (h : Inv q c) (id : Nat) (r r' : Read) (i : In)
    (ht : ∀ t, r = .newStream t → get c.recv id = some .head → TypeFits id t = true) :
    Track c (readableBase c id r r' i).1 ∧ Keeps c (readableBase c id r r' i).1 := by
  unfold readableBase
  have h0 := streamReceive_track h id r
  have h1 := streamReceive_spec h id r
  split
  · rename_i c1 e hq; rw [hq] at h0; exact h0
  · rename_i c1 t hq; rw [hq] at h0 h1
    obtain ⟨a1, a2, a3⟩ := h1
    obtain ⟨b1, b2, b3, b4, b5⟩ := a3 t rfl
    have h2 := newStream_spec a1 b1 b2 t (ht t b4 b3) r'
    have h3 := newStream_track a1 b1 b2 t (ht t b4 b3) r'
    split
    · rename_i c2 e hq2; rw [hq2] at h3
      exact ⟨h0.1.trans h3.1, h0.2.trans h3.2⟩
    · rename_i c2 o hq2; rw [hq2] at h2 h3
      have h4 := handleOutput_track h2.1 i o
      exact ⟨(h0.1.trans h3.1).trans h4.1, (h0.2.trans h3.2).trans h4.2⟩
  · rename_i c1 o hn hq; rw [hq] at h0 h1
    have h4 := handleOutput_track h1.1 i o
    exact ⟨h0.1.trans h4.1, h0.2.trans h4.2⟩

end Neqo.H3c
