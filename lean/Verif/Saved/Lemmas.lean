import Verif.Saved.Model

/-! # Lemmas about saved datagrams -/
namespace Neqo.Saved

variable {env : List (Pkt × Nat) → Pkt → List KeyEv}

/-! ## What holds through all the steps of a call -/

theorem input_pres {P : Conn → Prop}
    (hpre : ∀ c p c', P c → c.pre p = some c' → P c')
    (hproc : ∀ c p t, P c → c.status p.ep = .ready → P (c.process env p t))
    (hlose : ∀ c w ps t, P c → P (c.lose w ps t))
    (hsave : ∀ c p rest t, P c → c.status p.ep = .pending → P (c.save p.ep (p :: rest) t))
    (t : Nat) : ∀ (ps : List Pkt) (c : Conn), P c → P (c.input env t ps)
  | [], _, h => h
  | p :: rest, c, h => by
    unfold Conn.input
    cases hp : c.pre p with
    | none => exact hlose _ _ _ _ h
    | some c' =>
      have h' := hpre c p c' h hp
      dsimp only
      cases hs : c'.status p.ep with
      | ready =>
        dsimp only
        cases p.auth with
        | true => exact input_pres hpre hproc hlose hsave t rest _ (hproc _ _ _ h' hs)
        | false => exact input_pres hpre hproc hlose hsave t rest _ (hlose _ _ _ _ h')
      | pending => exact hsave _ _ _ _ h' hs
      | gone => exact input_pres hpre hproc hlose hsave t rest _ (hlose _ _ _ _ h')

theorem foldl_pres {α : Type} {P : Conn → Prop} {f : Conn → α → Conn}
    (h : ∀ c d, P c → P (f c d)) : ∀ (l : List α) (c : Conn), P c → P (l.foldl f c)
  | [], _, hc => hc
  | d :: l, c, hc => foldl_pres h l _ (h c d hc)

/-- The state with which `process_saved` begins on the datagrams it took. -/
def taken (c : Conn) (e : Ep) : Conn :=
  { c with store := c.store.take.2, failed := c.failed || decide (c.status e ≠ .ready) }

theorem processSaved_pres {P : Conn → Prop}
    (hin : ∀ c t ps, P c → P (c.input env t ps))
    (htake : ∀ c e, P c → c.store.avail = some e → P (taken c e)) :
    ∀ (n : Nat) (c : Conn), P c → P (c.processSaved env n)
  | 0, _, h => h
  | n + 1, c, h => by
    unfold Conn.processSaved
    cases ha : c.store.avail with
    | none => exact h
    | some e =>
      exact processSaved_pres hin htake n _
        (foldl_pres (f := fun c (d : Dg) => c.input env d.t d.pkts) (fun c d hc => hin c _ _ hc) _ _
          (htake c e h ha))

/-- A predicate that a step keeps. -/
theorem step_pres {P : Conn → Prop}
    (hevs : ∀ c, P c → P { c with evs := [] })
    (hkey : ∀ c k, P c → P (c.key k))
    (hin : ∀ c t ps, P c → P (c.input env t ps))
    (htake : ∀ c e, P c → c.store.avail = some e → P (taken c e))
    (c : Conn) (op : Op) (h : P c) : P (c.step env op) := by
  unfold Conn.step
  cases op with
  | receive ds now =>
    exact processSaved_pres hin htake _ _
      (foldl_pres (f := fun c d => c.input env now d) (fun c d hc => hin c _ _ hc) _ _ (hevs _ h))
  | authenticated done =>
    refine processSaved_pres hin htake _ _ ?_
    cases done with
    | true => exact hkey _ .connected (hevs _ h)
    | false => exact hevs _ h
  | sent =>
    dsimp only
    split
    · exact hkey _ _ (hevs _ h)
    · exact hevs _ h

theorem run_pres {P : Conn → Prop} (h : ∀ c op, P c → P (c.step env op)) :
    ∀ (ops : List Op) (c : Conn), P c → P (c.run env ops)
  | [], _, hc => hc
  | op :: ops, c, hc => run_pres h ops _ (h c op hc)

/-! ## The store -/

theorem of_makeAvailable (s : Store) (e f : Ep) : (s.makeAvailable e).of f = s.of f := by
  unfold Store.makeAvailable
  split <;> cases f <;> rfl

theorem avail_makeAvailable (s : Store) (e : Ep) :
    (s.makeAvailable e).avail = if (s.of e).isEmpty then s.avail else some e := by
  unfold Store.makeAvailable
  split <;> rfl

/-! ## The keys -/

/-- What the flags say about each other. -/
structure Flags (c : Conn) : Prop where
  hs : c.hs = true → c.hsDone = true
  app : c.app = true → c.hsDone = true
  availHs : c.store.avail = some .handshake → c.hsDone = true
  availApp : c.store.avail = some .app → c.app = true
  avail : c.store.avail = none ∨ c.store.avail = some .handshake ∨ c.store.avail = some .app

theorem Flags.key {c : Conn} (h : Flags c) (k : KeyEv) : Flags (c.key k) := by
  cases k with
  | hsKeys =>
    unfold Conn.key
    dsimp only
    by_cases hd : c.hsDone = true
    · rw [if_pos hd]; exact h
    · rw [if_neg hd]
      refine ⟨fun _ => rfl, fun _ => rfl, fun _ => rfl, ?_, ?_⟩
      · dsimp only
        rw [avail_makeAvailable]
        split
        · exact h.availApp
        · intro h; cases h
      · dsimp only
        rw [avail_makeAvailable]
        split
        · exact h.avail
        · exact .inr (.inl rfl)
  | connected =>
    unfold Conn.key
    dsimp only
    by_cases hd : (c.app || !c.hsDone) = true
    · rw [if_pos hd]; exact h
    · rw [if_neg hd]
      have hd2 : c.hsDone = true := by
        cases hx : c.hsDone with
        | true => rfl
        | false => rw [hx] at hd; simp at hd
      refine ⟨fun _ => hd2, fun _ => hd2, fun _ => hd2, fun _ => rfl, ?_⟩
      dsimp only
      rw [avail_makeAvailable]
      split
      · exact h.avail
      · exact .inr (.inr rfl)
  | early on => exact ⟨h.hs, h.app, h.availHs, h.availApp, h.avail⟩
  | discardInitial => exact ⟨h.hs, h.app, h.availHs, h.availApp, h.avail⟩
  | discardHs =>
    unfold Conn.key
    dsimp only
    split
    · exact ⟨(fun h => by cases h), h.app, h.availHs, h.availApp, h.avail⟩
    · exact h

theorem keys_pres {P : Conn → Prop} (h : ∀ c k, P c → P (c.key k)) :
    ∀ (ks : List KeyEv) (c : Conn), P c → P (ks.foldl Conn.key c) :=
  foldl_pres h

/-- The connection with another store. -/
theorem save_cases (c : Conn) (e : Ep) (ps : List Pkt) (t : Nat) :
    ((c.store.of e).length < 4 ∧
      c.save e ps t = { c with store := c.store.set e (c.store.of e ++ [⟨ps, t⟩]) }) ∨
    (¬ (c.store.of e).length < 4 ∧ c.save e ps t = c.lose .full ps t) := by
  by_cases hl : (c.store.of e).length < 4
  · refine .inl ⟨hl, ?_⟩
    simp [Conn.save, Store.save, capacity, hl]
  · refine .inr ⟨hl, ?_⟩
    simp [Conn.save, Store.save, capacity, hl]

theorem avail_set (s : Store) (e : Ep) (l : List Dg) : (s.set e l).avail = s.avail := by
  cases e <;> rfl

theorem pre_cases {c c' : Conn} {p : Pkt} (h : c.pre p = some c') :
    ∃ ph i, c' = { c with phase := ph, initial := i } := by
  unfold Conn.pre at h
  cases hp : c.phase with
  | init =>
    rw [hp] at h
    dsimp only at h
    split at h
    · exact ⟨_, _, (Option.some.inj h).symm⟩
    · cases h
  | wait =>
    rw [hp] at h
    exact ⟨c.phase, c.initial, (Option.some.inj h).symm⟩
  | on =>
    rw [hp] at h
    have h := (Option.some.inj h).symm
    split at h
    · exact ⟨.on, _, h⟩
    · exact ⟨c.phase, c.initial, h⟩

theorem Flags.input {c : Conn} (h : Flags c) (t : Nat) (ps : List Pkt) :
    Flags (c.input env t ps) := by
  refine input_pres (P := Flags) ?_ ?_ ?_ ?_ t ps c h
  · intro c p c' h hp
    obtain ⟨ph, i, rfl⟩ := pre_cases hp
    exact ⟨h.hs, h.app, h.availHs, h.availApp, h.avail⟩
  · intro c p t h _
    have := keys_pres (P := Flags) (fun c k h => h.key k) (env c.log p) c h
    exact ⟨this.hs, this.app, this.availHs, this.availApp, this.avail⟩
  · intro c w ps t h
    exact ⟨h.hs, h.app, h.availHs, h.availApp, h.avail⟩
  · intro c p rest t h _
    rcases save_cases c p.ep (p :: rest) t with ⟨_, he⟩ | ⟨_, he⟩
    · rw [he]
      refine ⟨h.hs, h.app, ?_, ?_, ?_⟩ <;> dsimp only <;> rw [avail_set]
      · exact h.availHs
      · exact h.availApp
      · exact h.avail
    · rw [he]; exact ⟨h.hs, h.app, h.availHs, h.availApp, h.avail⟩

theorem avail_take (s : Store) : s.take.2.avail = none := by
  unfold Store.take
  cases h : s.avail with
  | none => exact h
  | some e => rfl

theorem Flags.take {c : Conn} (h : Flags c) (e : Ep) : Flags (taken c e) :=
  have hn : ∀ x, (taken c e).store.avail ≠ some x := by
    intro x hx
    unfold taken at hx
    dsimp only at hx
    rw [avail_take] at hx
    cases hx
  ⟨h.hs, h.app, fun hx => (hn _ hx).elim, fun hx => (hn _ hx).elim, .inl (avail_take _)⟩

theorem Flags.step {c : Conn} (h : Flags c) (op : Op) : Flags (c.step env op) :=
  step_pres (P := Flags) (fun _ h => ⟨h.hs, h.app, h.availHs, h.availApp, h.avail⟩)
    (fun _ k h => h.key k) (fun _ t ps h => h.input t ps) (fun _ e h _ => h.take e) c op h

/-! ## `process_saved` comes to an end -/

/-- How often datagrams can still be made available. -/
def left (c : Conn) : Nat :=
  (if c.store.avail = none then 0 else 1) + (if c.hsDone then 0 else 1) + (if c.app then 0 else 1)

theorem left_key (c : Conn) (k : KeyEv) : left (c.key k) ≤ left c := by
  cases k with
  | hsKeys =>
    unfold Conn.key
    dsimp only
    split
    · exact Nat.le_refl _
    · rename_i hd
      simp only [left, avail_makeAvailable, hd]
      (repeat' split) <;> simp_all
  | connected =>
    unfold Conn.key
    dsimp only
    split
    · exact Nat.le_refl _
    · rename_i hd
      simp only [Bool.or_eq_true, Bool.not_eq_true', not_or, Bool.not_eq_true,
        Bool.not_eq_false] at hd
      simp only [left, avail_makeAvailable, hd.1, hd.2]
      (repeat' split) <;> simp_all
  | early on => exact Nat.le_refl _
  | discardInitial => exact Nat.le_refl _
  | discardHs => unfold Conn.key; dsimp only; split <;> exact Nat.le_refl _

theorem left_input (n : Nat) (c : Conn) (t : Nat) (ps : List Pkt) (h : left c ≤ n) :
    left (c.input env t ps) ≤ n := by
  refine input_pres (P := fun c => left c ≤ n) ?_ ?_ ?_ ?_ t ps c h
  · intro c p c' h hp
    obtain ⟨ph, i, rfl⟩ := pre_cases hp
    exact h
  · intro c p t h _
    exact keys_pres (P := fun c => left c ≤ n) (fun c k h => Nat.le_trans (left_key c k) h)
      (env c.log p) c h
  · intro c w ps t h
    exact h
  · intro c p rest t h _
    rcases save_cases c p.ep (p :: rest) t with ⟨_, he⟩ | ⟨_, he⟩
    · rw [he]
      unfold left at h ⊢
      dsimp only
      rw [avail_set]
      exact h
    · rw [he]; exact h

theorem processSaved_done : ∀ (n : Nat) (c : Conn), left c ≤ n →
    (c.processSaved env n).store.avail = none
  | 0, c, h => by
    unfold Conn.processSaved
    unfold left at h
    by_cases ha : c.store.avail = none
    · exact ha
    · rw [if_neg ha] at h; omega
  | n + 1, c, h => by
    unfold Conn.processSaved
    cases ha : c.store.avail with
    | none => exact ha
    | some e =>
      refine processSaved_done n _ ?_
      refine foldl_pres (P := fun c => left c ≤ n) (f := fun c (d : Dg) => c.input env d.t d.pkts)
        (fun c d hc => left_input n c _ _ hc) _ _ ?_
      unfold left at h ⊢
      dsimp only
      rw [avail_take, if_pos rfl]
      rw [ha, if_neg (by intro h; cases h)] at h
      omega

theorem left_le (c : Conn) : left c ≤ 3 := by
  unfold left
  (repeat' split) <;> omega

/-- Between calls nothing is left to be taken up. -/
theorem step_avail {c : Conn} (h : c.store.avail = none) (op : Op) :
    (c.step env op).store.avail = none := by
  unfold Conn.step
  cases op with
  | receive ds now => exact processSaved_done _ _ (left_le _)
  | authenticated done => exact processSaved_done _ _ (left_le _)
  | sent =>
    dsimp only
    split
    · cases c.server with
      | true => simp only [if_true, Conn.key]; split <;> exact h
      | false => exact h
    · exact h

end Neqo.Saved
