import Verif.Saved.Lemmas

/-!
# C103 and C104: packets that come before their keys; forged packets

`Conn.log` has the packets that were opened, each with the time from which its
acknowledgement delay and the like are counted; `Conn.lost` those dropped.
-/
namespace Neqo.Saved

variable {env : List (Pkt × Nat) → Pkt → List KeyEv}

/-! ## Specification -/

/-- The packets handed in, each with the time of the call. -/
def Spec.arrived : List Op → List (Pkt × Nat)
  | [] => []
  | .receive ds now :: ops => ds.flatten.map (fun p => (p, now)) ++ Spec.arrived ops
  | _ :: ops => Spec.arrived ops

/-- The packets that wait for keys. -/
def Spec.waiting (c : Conn) : List (Pkt × Nat) :=
  (c.store.hs ++ c.store.app).flatMap fun d => d.pkts.map fun p => (p, d.t)

/-- The packets that were dropped. -/
def Spec.dropped (c : Conn) : List (Pkt × Nat) := c.lost.map fun x => (x.1, x.2.1)

/-- No single call brings both the Handshake keys and the end of the handshake. -/
def Spec.Separate (env : List (Pkt × Nat) → Pkt → List KeyEv) : Conn → List Op → Prop
  | _, [] => True
  | c, op :: ops =>
    ¬ (KeyEv.hsKeys ∈ (c.step env op).evs ∧ KeyEv.connected ∈ (c.step env op).evs) ∧
      Spec.Separate env (c.step env op) ops

/-! ## Nothing is lost track of -/

/-- How often a packet is recorded anywhere. -/
def total (x : Pkt × Nat) (c : Conn) : Nat :=
  c.log.count x + (Spec.dropped c).count x + (Spec.waiting c).count x

theorem waiting_makeAvailable (c : Conn) (e : Ep) :
    Spec.waiting { c with store := c.store.makeAvailable e } = Spec.waiting c := by
  unfold Spec.waiting
  have h1 := of_makeAvailable c.store e .handshake
  have h2 := of_makeAvailable c.store e .app
  dsimp only [Store.of] at h1 h2
  dsimp only
  rw [h1, h2]

theorem total_key (x : Pkt × Nat) (c : Conn) (k : KeyEv) : total x (c.key k) = total x c := by
  cases k with
  | hsKeys =>
    unfold Conn.key
    dsimp only
    split
    · rfl
    · exact congrArg (fun l => c.log.count x + (Spec.dropped c).count x + List.count x l)
        (waiting_makeAvailable c .handshake)
  | connected =>
    unfold Conn.key
    dsimp only
    split
    · rfl
    · exact congrArg (fun l => c.log.count x + (Spec.dropped c).count x + List.count x l)
        (waiting_makeAvailable c .app)
  | early on => rfl
  | discardInitial => rfl
  | discardHs => unfold Conn.key; dsimp only; split <;> rfl

theorem total_process (x : Pkt × Nat) (c : Conn) (p : Pkt) (t : Nat) :
    total x (c.process env p t) = total x c + [(p, t)].count x := by
  have h : total x ((env c.log p).foldl Conn.key c) = total x c :=
    keys_pres (P := fun d => total x d = total x c) (fun d k hd => (total_key x d k).trans hd) _ _ rfl
  rw [← h]
  unfold Conn.process
  generalize (env c.log p).foldl Conn.key c = d
  unfold total Spec.dropped Spec.waiting
  dsimp only
  rw [List.count_append]
  omega

theorem total_lose (x : Pkt × Nat) (c : Conn) (w : Why) (ps : List Pkt) (t : Nat) :
    total x (c.lose w ps t) = total x c + (ps.map fun p => (p, t)).count x := by
  unfold total Conn.lose Spec.dropped Spec.waiting
  dsimp only
  rw [List.map_append, List.count_append, List.map_map]
  have : (ps.map ((fun x : Pkt × Nat × Why => (x.1, x.2.1)) ∘ fun p => (p, t, w))) =
      ps.map fun p => (p, t) := rfl
  rw [this]
  omega

theorem total_save (x : Pkt × Nat) (c : Conn) (p : Pkt) (ps : List Pkt) (t : Nat)
    (h : c.status p.ep = .pending) :
    total x (c.save p.ep ps t) = total x c + (ps.map fun p => (p, t)).count x := by
  rcases save_cases c p.ep ps t with ⟨_, he⟩ | ⟨_, he⟩
  · rw [he]
    unfold total Spec.dropped Spec.waiting
    cases hp : p.ep with
    | initial => rw [hp] at h; unfold Conn.status at h; dsimp only at h; split at h <;> cases h
    | zeroRtt => rw [hp] at h; unfold Conn.status at h; dsimp only at h; split at h <;> cases h
    | handshake =>
      simp only [Store.set, Store.of, List.flatMap_append, List.count_append, List.flatMap_cons,
        List.flatMap_nil, List.append_nil]
      omega
    | app =>
      simp only [Store.set, Store.of, List.flatMap_append, List.count_append, List.flatMap_cons,
        List.flatMap_nil, List.append_nil]
      omega
  · rw [he]; exact total_lose x c _ _ _

theorem total_input (x : Pkt × Nat) (t : Nat) : ∀ (ps : List Pkt) (c : Conn),
    total x (c.input env t ps) = total x c + (ps.map fun p => (p, t)).count x
  | [], c => by simp [Conn.input]
  | p :: rest, c => by
    unfold Conn.input
    have hc : (((p :: rest).map fun p => (p, t)) : List (Pkt × Nat)).count x =
        (([p].map fun p => (p, t)) : List (Pkt × Nat)).count x + (rest.map fun p => (p, t)).count x := by
      rw [← List.count_append]
      rfl
    rw [hc]
    cases hp : c.pre p with
    | none => rw [← hc]; exact total_lose x c _ _ _
    | some c' =>
      obtain ⟨ph, i, he⟩ := pre_cases hp
      have ht : total x c' = total x c := by rw [he]; rfl
      rw [← ht]
      dsimp only
      cases hs : c'.status p.ep with
      | ready =>
        dsimp only
        cases p.auth with
        | true =>
          rw [if_pos rfl, total_input x t rest, total_process]
          simp only [List.map_cons, List.map_nil]
          omega
        | false =>
          rw [if_neg (by decide), total_input x t rest, total_lose]
          omega
      | pending => rw [← hc]; exact total_save x c' p _ t hs
      | gone =>
        dsimp only
        rw [total_input x t rest, total_lose]
        omega

theorem total_inputs (x : Pkt × Nat) : ∀ (ds : List Dg) (c : Conn),
    total x (ds.foldl (fun c d => c.input env d.t d.pkts) c) =
      total x c + (ds.flatMap fun d => d.pkts.map fun p => (p, d.t)).count x
  | [], c => by simp
  | d :: ds, c => by
    rw [List.foldl_cons, total_inputs x ds, total_input, List.flatMap_cons, List.count_append]
    omega

theorem total_taken (x : Pkt × Nat) (c : Conn) (e : Ep) :
    total x (taken c e) + (c.store.take.1.flatMap fun d => d.pkts.map fun p => (p, d.t)).count x =
      total x c := by
  unfold taken total Spec.dropped Spec.waiting Store.take
  cases ha : c.store.avail with
  | none => simp
  | some e =>
    cases e <;>
      simp only [Store.set, Store.of, List.flatMap_append, List.count_append, List.flatMap_nil,
        List.nil_append, List.append_nil, List.count_nil] <;> omega

theorem total_processSaved (x : Pkt × Nat) : ∀ (n : Nat) (c : Conn),
    total x (c.processSaved env n) = total x c
  | 0, _ => rfl
  | n + 1, c => by
    unfold Conn.processSaved
    cases ha : c.store.avail with
    | none => rfl
    | some e =>
      dsimp only
      rw [total_processSaved x n, total_inputs]
      exact total_taken x c e

theorem total_step (x : Pkt × Nat) (c : Conn) (op : Op) :
    total x (c.step env op) = total x c + (Spec.arrived [op]).count x := by
  unfold Conn.step
  cases op with
  | receive ds now =>
    dsimp only
    rw [total_processSaved]
    have : ∀ (ds : List (List Pkt)) (c : Conn),
        total x (ds.foldl (fun c d => c.input env now d) c) =
          total x c + (ds.flatten.map fun p => (p, now)).count x := by
      intro ds
      induction ds with
      | nil => intro c; simp
      | cons d ds ih =>
        intro c
        rw [List.foldl_cons, ih, total_input, List.flatten_cons, List.map_append, List.count_append]
        omega
    rw [this]
    simp only [Spec.arrived, List.append_nil]
    rfl
  | authenticated done =>
    dsimp only
    rw [total_processSaved]
    cases done with
    | true => rw [if_pos rfl, total_key]; rfl
    | false => rfl
  | sent =>
    dsimp only
    split
    · rw [total_key]; rfl
    · rfl

/-- Every packet that arrives is opened once, with the time at which it arrived, or
dropped, or waits for keys, and no packet is opened that did not arrive. -/
theorem C103_conserved (env : List (Pkt × Nat) → Pkt → List KeyEv) (c : Conn)
    (hc : c = .client ∨ c = .fresh) (ops : List Op) :
    ((c.run env ops).log ++ Spec.dropped (c.run env ops) ++ Spec.waiting (c.run env ops)).Perm
      (Spec.arrived ops) := by
  rw [List.perm_iff_count]
  intro x
  have h0 : total x c = 0 := by rcases hc with rfl | rfl <;> rfl
  have key : ∀ (ops : List Op) (c : Conn),
      total x (c.run env ops) = total x c + (Spec.arrived ops).count x := by
    intro ops
    induction ops with
    | nil => intro c; rfl
    | cons op ops ih =>
      intro c
      rw [Conn.run, ih, total_step]
      have : (Spec.arrived (op :: ops)).count x =
          (Spec.arrived [op]).count x + (Spec.arrived ops).count x := by
        cases op with
        | receive ds now => simp [Spec.arrived, List.count_append]
        | authenticated done => simp [Spec.arrived]
        | sent => simp [Spec.arrived]
      omega
  have := key ops c
  rw [h0] at this
  rw [List.count_append, List.count_append]
  unfold total at this
  omega

/-! ## Room -/

/-- At most four datagrams wait for each of the two sets of keys. -/
theorem C103_bounded (env : List (Pkt × Nat) → Pkt → List KeyEv) (c : Conn)
    (hc : c = .client ∨ c = .fresh) (ops : List Op) :
    (c.run env ops).store.hs.length ≤ 4 ∧ (c.run env ops).store.app.length ≤ 4 := by
  let P : Conn → Prop := fun c => c.store.hs.length ≤ 4 ∧ c.store.app.length ≤ 4
  have hmake : ∀ (c : Conn) e, P c → (c.store.makeAvailable e).hs.length ≤ 4 ∧
      (c.store.makeAvailable e).app.length ≤ 4 := by
    intro c e h
    have h1 := of_makeAvailable c.store e .handshake
    have h2 := of_makeAvailable c.store e .app
    dsimp only [Store.of] at h1 h2
    rw [h1, h2]
    exact h
  have hkey : ∀ (c : Conn) k, P c → P (c.key k) := by
    intro c k h
    cases k with
    | hsKeys => unfold Conn.key; dsimp only; split <;> first | exact h | exact hmake c _ h
    | connected => unfold Conn.key; dsimp only; split <;> first | exact h | exact hmake c _ h
    | early on => exact h
    | discardInitial => exact h
    | discardHs => unfold Conn.key; dsimp only; split <;> exact h
  refine run_pres (P := P) (fun c op h => step_pres (P := P) (fun _ h => h) hkey ?_ ?_ c op h) ops c ?_
  · intro c t ps h
    refine input_pres (P := P) ?_ ?_ (fun _ _ _ _ h => h) ?_ t ps c h
    · intro c p c' h hp
      obtain ⟨ph, i, rfl⟩ := pre_cases hp
      exact h
    · intro c p t h _
      exact keys_pres hkey (env c.log p) c h
    · intro c p rest t h _
      rcases save_cases c p.ep (p :: rest) t with ⟨hl, he⟩ | ⟨_, he⟩
      · rw [he]
        cases hp : p.ep with
        | initial => exact h
        | zeroRtt => exact h
        | handshake =>
          rw [hp] at hl
          refine ⟨?_, h.2⟩
          simp only [Store.set, Store.of, List.length_append, List.length_cons, List.length_nil]
          simp only [Store.of] at hl
          omega
        | app =>
          rw [hp] at hl
          refine ⟨h.1, ?_⟩
          simp only [Store.set, Store.of, List.length_append, List.length_cons, List.length_nil]
          simp only [Store.of] at hl
          omega
      · rw [he]; exact h
  · intro c e h ha
    show (c.store.take.2).hs.length ≤ 4 ∧ (c.store.take.2).app.length ≤ 4
    unfold Store.take
    rw [ha]
    cases e with
    | initial => exact h
    | zeroRtt => exact h
    | handshake => exact ⟨by simp [Store.set], h.2⟩
    | app => exact ⟨h.1, by simp [Store.set]⟩
  · rcases hc with rfl | rfl <;> exact ⟨by decide, by decide⟩

theorem log_mono (x : Pkt × Nat) (c : Conn) (t : Nat) (ps : List Pkt) (h : x ∈ c.log) :
    x ∈ (c.input env t ps).log := by
  have hkey : ∀ (c : Conn) k, x ∈ c.log → x ∈ (c.key k).log := by
    intro c k h
    cases k <;> unfold Conn.key <;> dsimp only <;> (try split) <;> exact h
  refine input_pres (P := fun c => x ∈ c.log) ?_ ?_ (fun _ _ _ _ h => h) ?_ t ps c h
  · intro c p c' h hp
    obtain ⟨ph, i, rfl⟩ := pre_cases hp
    exact h
  · intro c p t h _
    exact List.mem_append_left _ (keys_pres (P := fun c => x ∈ c.log) hkey _ _ h)
  · intro c p rest t h _
    rcases save_cases c p.ep (p :: rest) t with ⟨hl, he⟩ | ⟨_, he⟩ <;> rw [he] <;> exact h

/-- A packet is not dropped while there is room: it is opened or waits.  (On a
server, as it stands for 1-RTT packets; Handshake packets see C104.) -/
theorem C103_room (env : List (Pkt × Nat) → Pkt → List KeyEv) (c : Conn) (p : Pkt) (t : Nat)
    (hav : c.store.avail = none) (hphase : c.phase ≠ .init) (hauth : p.auth = true)
    (hwho : c.server = false ∨ p.ep = .app) (hst : c.status p.ep ≠ .gone)
    (hroom : (c.store.of p.ep).length < 4) :
    (p, t) ∈ (c.step env (.receive [[p]] t)).log ∨
      (p, t) ∈ Spec.waiting (c.step env (.receive [[p]] t)) := by
  have hpre : ({ c with evs := [] } : Conn).pre p = some { c with evs := [] } := by
    unfold Conn.pre
    cases hp : c.phase with
    | init => exact absurd hp hphase
    | wait => rfl
    | on =>
      dsimp only
      rw [if_neg]
      rintro ⟨h1, h2⟩
      rcases hwho with h | h
      · rw [h] at h1; cases h1
      · rw [h] at h2; cases h2
  unfold Conn.step
  dsimp only [List.foldl_cons, List.foldl_nil]
  unfold Conn.input
  rw [hpre]
  dsimp only
  have hse : ({ c with evs := [] } : Conn).status p.ep = c.status p.ep := by
    unfold Conn.status; rfl
  rw [hse]
  cases hs : c.status p.ep with
  | gone => exact absurd hs hst
  | ready =>
    dsimp only
    rw [if_pos hauth]
    refine .inl (processSaved_pres (P := fun c => (p, t) ∈ c.log) (fun c u ps h => log_mono _ c u ps h)
      (fun c e h _ => h) _ _ ?_)
    unfold Conn.input Conn.process
    exact List.mem_append_right _ (by simp)
  | pending =>
    dsimp only
    refine .inr ?_
    rcases save_cases { c with evs := [] } p.ep [p] t with ⟨_, he⟩ | ⟨hn, _⟩
    · rw [he]
      unfold Conn.processSaved
      dsimp only
      rw [avail_set, hav]
      dsimp only
      unfold Spec.waiting
      dsimp only
      cases hp : p.ep with
      | initial => rw [hp] at hs; unfold Conn.status at hs; dsimp only at hs; split at hs <;> cases hs
      | zeroRtt => rw [hp] at hs; unfold Conn.status at hs; dsimp only at hs; split at hs <;> cases hs
      | handshake => simp [Store.set, Store.of]
      | app => simp [Store.set, Store.of]
    · exact absurd hroom hn

/-! ## Nothing waits for keys that are there -/

/-- The invariant within a call. -/
structure W (c : Conn) : Prop where
  flags : Flags c
  hs : c.hs = true → c.store.hs = [] ∨ c.store.avail = some .handshake
  app : c.app = true → c.store.app = [] ∨ c.store.avail = some .app
  evh : c.store.avail = some .handshake → KeyEv.hsKeys ∈ c.evs ∧ c.hs = true
  eva : c.store.avail = some .app → KeyEv.connected ∈ c.evs
  fresh : KeyEv.hsKeys ∈ c.evs → c.app = true → KeyEv.connected ∈ c.evs
  ok : c.failed = false

/-- Both happened in this call. -/
def Both (c : Conn) : Prop := KeyEv.hsKeys ∈ c.evs ∧ KeyEv.connected ∈ c.evs

theorem both_key {c : Conn} (h : Both c) (k : KeyEv) : Both (c.key k) := by
  cases k <;> unfold Conn.key <;> dsimp only <;> (try split) <;>
    first | exact h | exact ⟨List.mem_append_left _ h.1, List.mem_append_left _ h.2⟩

theorem W.key {c : Conn} (h : W c) (k : KeyEv) : Both (c.key k) ∨ W (c.key k) := by
  have hf := h.flags.key k
  cases k with
  | early on => exact .inr ⟨hf, h.hs, h.app, h.evh, h.eva, h.fresh, h.ok⟩
  | discardInitial => exact .inr ⟨hf, h.hs, h.app, h.evh, h.eva, h.fresh, h.ok⟩
  | discardHs =>
    unfold Conn.key at hf ⊢
    dsimp only at hf ⊢
    by_cases ha : c.app = true
    · rw [if_pos ha] at hf ⊢
      by_cases hv : c.store.avail = some .handshake
      · exact .inl ⟨(h.evh hv).1, h.fresh (h.evh hv).1 ha⟩
      · exact .inr ⟨hf, (fun h => by cases h), h.app, fun hv' => absurd hv' hv, h.eva, h.fresh, h.ok⟩
    · rw [if_neg ha]; exact .inr h
  | hsKeys =>
    unfold Conn.key at hf ⊢
    dsimp only at hf ⊢
    by_cases hd : c.hsDone = true
    · rw [if_pos hd]; exact .inr h
    · rw [if_neg hd] at hf ⊢
      have happ : c.app = false := by
        cases hx : c.app with
        | false => rfl
        | true => exact absurd (h.flags.app hx) hd
      have h1 := of_makeAvailable c.store .handshake .handshake
      have h2 := of_makeAvailable c.store .handshake .app
      dsimp only [Store.of] at h1 h2
      refine .inr ⟨hf, ?_, ?_, ?_, ?_, ?_, h.ok⟩
      · intro _
        dsimp only
        rw [h1, avail_makeAvailable]
        by_cases he : (c.store.of .handshake).isEmpty = true
        · exact .inl (List.isEmpty_iff.mp he)
        · rw [if_neg he]; exact .inr rfl
      · intro hx; rw [happ] at hx; cases hx
      · intro _; exact ⟨List.mem_append_right _ (by simp), rfl⟩
      · dsimp only
        rw [avail_makeAvailable]
        split
        · intro hx; exact List.mem_append_left _ (h.eva hx)
        · intro hx; cases hx
      · intro _ hx; rw [happ] at hx; cases hx
  | connected =>
    unfold Conn.key at hf ⊢
    dsimp only at hf ⊢
    by_cases hd : (c.app || !c.hsDone) = true
    · rw [if_pos hd]; exact .inr h
    · rw [if_neg hd] at hf ⊢
      by_cases hb : KeyEv.hsKeys ∈ c.evs
      · exact .inl ⟨List.mem_append_left _ hb, List.mem_append_right _ (by simp)⟩
      have hav : c.store.avail ≠ some .handshake := fun hx => hb (h.evh hx).1
      have h1 := of_makeAvailable c.store .app .handshake
      have h2 := of_makeAvailable c.store .app .app
      dsimp only [Store.of] at h1 h2
      refine .inr ⟨hf, ?_, ?_, ?_, ?_, ?_, h.ok⟩
      · intro hx
        dsimp only
        rw [h1]
        rcases h.hs hx with h | h
        · exact .inl h
        · exact absurd h hav
      · intro _
        dsimp only
        rw [h2, avail_makeAvailable]
        by_cases he : (c.store.of .app).isEmpty = true
        · exact .inl (List.isEmpty_iff.mp he)
        · rw [if_neg he]; exact .inr rfl
      · dsimp only
        rw [avail_makeAvailable]
        split
        · intro hx; exact absurd hx hav
        · intro hx; cases hx
      · intro _; exact List.mem_append_right _ (by simp)
      · intro _ _; exact List.mem_append_right _ (by simp)

/-- What holds within a call. -/
def BW (c : Conn) : Prop := Both c ∨ W c

theorem BW.key {c : Conn} (h : BW c) (k : KeyEv) : BW (c.key k) :=
  h.elim (fun h => .inl (both_key h k)) (fun h => h.key k)

theorem BW.input {c : Conn} (h : BW c) (t : Nat) (ps : List Pkt) : BW (c.input env t ps) := by
  refine input_pres (P := BW) ?_ ?_ ?_ ?_ t ps c h
  · intro c p c' h hp
    obtain ⟨ph, i, rfl⟩ := pre_cases hp
    refine h.imp id fun h => ?_
    exact ⟨⟨h.flags.hs, h.flags.app, h.flags.availHs, h.flags.availApp, h.flags.avail⟩,
      h.hs, h.app, h.evh, h.eva, h.fresh, h.ok⟩
  · intro c p t h _
    refine (keys_pres (P := BW) (fun c k h => h.key k) (env c.log p) c h).imp id fun h => ?_
    exact ⟨⟨h.flags.hs, h.flags.app, h.flags.availHs, h.flags.availApp, h.flags.avail⟩,
      h.hs, h.app, h.evh, h.eva, h.fresh, h.ok⟩
  · intro c w ps t h
    refine h.imp id fun h => ?_
    exact ⟨⟨h.flags.hs, h.flags.app, h.flags.availHs, h.flags.availApp, h.flags.avail⟩,
      h.hs, h.app, h.evh, h.eva, h.fresh, h.ok⟩
  · intro c p rest t h hs
    rcases save_cases c p.ep (p :: rest) t with ⟨_, he⟩ | ⟨_, he⟩
    · rw [he]
      refine h.imp id fun h => ?_
      have hav := avail_set c.store p.ep (c.store.of p.ep ++ [⟨p :: rest, t⟩])
      refine ⟨⟨h.flags.hs, h.flags.app, ?_, ?_, ?_⟩, ?_, ?_, ?_, ?_, h.fresh, h.ok⟩ <;>
        dsimp only <;> rw [hav]
      · exact h.flags.availHs
      · exact h.flags.availApp
      · exact h.flags.avail
      · intro hx
        cases hp : p.ep with
        | handshake =>
          rw [hp] at hs
          unfold Conn.status at hs
          dsimp only at hs
          rw [if_pos hx] at hs
          cases hs
        | app => exact h.hs hx
        | initial => exact h.hs hx
        | zeroRtt => exact h.hs hx
      · intro hx
        cases hp : p.ep with
        | app =>
          rw [hp] at hs
          unfold Conn.status at hs
          dsimp only at hs
          rw [if_pos hx] at hs
          cases hs
        | handshake => exact h.app hx
        | initial => exact h.app hx
        | zeroRtt => exact h.app hx
      · exact h.evh
      · exact h.eva
    · rw [he]
      refine h.imp id fun h => ?_
      exact ⟨⟨h.flags.hs, h.flags.app, h.flags.availHs, h.flags.availApp, h.flags.avail⟩,
        h.hs, h.app, h.evh, h.eva, h.fresh, h.ok⟩

theorem BW.taken {c : Conn} (h : BW c) (e : Ep) (ha : c.store.avail = some e) :
    BW (taken c e) := by
  refine h.imp id fun h => ?_
  have hn : ∀ x, (Saved.taken c e).store.avail ≠ some x := by
    intro x hx
    unfold Saved.taken at hx
    dsimp only at hx
    rw [avail_take] at hx
    cases hx
  refine ⟨h.flags.take e, ?_, ?_, fun hx => (hn _ hx).elim, fun hx => (hn _ hx).elim, h.fresh, ?_⟩
  · intro hx
    refine .inl ?_
    show (c.store.take.2).hs = []
    unfold Store.take
    rw [ha]
    cases e with
    | handshake => rfl
    | _ =>
      rcases h.hs hx with h | h
      · exact h
      · rw [ha] at h; cases h
  · intro hx
    refine .inl ?_
    show (c.store.take.2).app = []
    unfold Store.take
    rw [ha]
    cases e with
    | app => rfl
    | _ =>
      rcases h.app hx with h | h
      · exact h
      · rw [ha] at h; cases h
  · show (c.failed || decide (c.status e ≠ .ready)) = false
    have : c.status e = .ready := by
      rcases h.flags.avail with hv | hv | hv
      · rw [ha] at hv; cases hv
      · rw [ha] at hv
        cases hv
        unfold Conn.status
        dsimp only
        rw [if_pos (h.evh ha).2]
      · rw [ha] at hv
        cases hv
        unfold Conn.status
        dsimp only
        rw [if_pos (h.flags.availApp ha)]
    rw [h.ok, this]
    rfl

/-- What holds between calls. -/
structure Between (c : Conn) : Prop where
  flags : Flags c
  avail : c.store.avail = none
  hs : c.hs = true → c.store.hs = []
  app : c.app = true → c.store.app = []
  ok : c.failed = false

theorem Between.step {c : Conn} (h : Between c) (op : Op) (hb : ¬ Both (c.step env op)) :
    Between (c.step env op) := by
  have hav : ∀ x, c.store.avail ≠ some x := by intro x hx; rw [h.avail] at hx; cases hx
  let P : Conn → Prop := fun c => Between c ∨ BW c
  have hW : BW { c with evs := [] } :=
    .inr ⟨⟨h.flags.hs, h.flags.app, h.flags.availHs, h.flags.availApp, h.flags.avail⟩,
      fun hx => .inl (h.hs hx), fun hx => .inl (h.app hx), fun hx => (hav _ hx).elim,
      fun hx => (hav _ hx).elim, (fun hx => by cases hx), h.ok⟩
  have h1 : BW (c.step env op) := by
    unfold Conn.step
    cases op with
    | receive ds now =>
      exact processSaved_pres (P := BW) (fun c t ps h => h.input t ps) (fun c e h ha => h.taken e ha) _ _
        (foldl_pres (P := BW) (f := fun c d => c.input env now d) (fun c d hc => hc.input _ _) _ _ hW)
    | authenticated done =>
      refine processSaved_pres (P := BW) (fun c t ps h => h.input t ps) (fun c e h ha => h.taken e ha) _ _ ?_
      cases done with
      | true => exact hW.key .connected
      | false => exact hW
    | sent =>
      dsimp only
      split
      · exact hW.key _
      · exact hW
  have h2 := step_avail (env := env) h.avail op
  rcases h1 with h1 | h1
  · exact absurd h1 hb
  · refine ⟨h1.flags, h2, fun hx => ?_, fun hx => ?_, h1.ok⟩
    · rcases h1.hs hx with h | h
      · exact h
      · rw [h2] at h; cases h
    · rcases h1.app hx with h | h
      · exact h
      · rw [h2] at h; cases h

/-- Once a call is over no packet waits for keys that are there, as long as no
single call brings both the Handshake keys and the end of the handshake; and the
assertion about this holds.

Missing from the full property: calls that bring both (`C103_stranded`,
`C103_assertion_fails`). -/
theorem C103_in_time_partial (env : List (Pkt × Nat) → Pkt → List KeyEv) (c : Conn)
    (hc : c = .client ∨ c = .fresh) (ops : List Op) (hsep : Spec.Separate env c ops) :
    ((c.run env ops).hs = true → (c.run env ops).store.hs = []) ∧
      ((c.run env ops).app = true → (c.run env ops).store.app = []) ∧
      (c.run env ops).failed = false := by
  have h0 : Between c := by
    rcases hc with rfl | rfl <;>
      exact ⟨⟨(by intro h; cases h), (by intro h; cases h), (by intro h; cases h),
        (by intro h; cases h), .inl rfl⟩, rfl, fun _ => rfl, fun _ => rfl, rfl⟩
  have key : ∀ (ops : List Op) (c : Conn), Between c → Spec.Separate env c ops →
      Between (c.run env ops) := by
    intro ops
    induction ops with
    | nil => intro c h _; exact h
    | cons op ops ih => intro c h hs; exact ih _ (h.step op hs.1) hs.2
  have := key ops c h0 hsep
  exact ⟨this.hs, this.app, this.ok⟩

/-- The general case is false.  When the handshake is completed by the packets of
the same call that brings the Handshake keys, which a resumed handshake allows,
and packets wait for both, those that wait for Handshake keys are forgotten: they
are still there after everything that may follow. -/
theorem C103_stranded : ∃ (env : List (Pkt × Nat) → Pkt → List KeyEv) (ops : List Op) (d : Dg),
    (Conn.client.run env ops).hs = true ∧ (Conn.client.run env ops).app = true ∧
      ∀ more, d ∈ ((Conn.client.run env ops).run env more).store.hs := by
  let env : List (Pkt × Nat) → Pkt → List KeyEv := fun _ p =>
    if p.tag = 1 then [.hsKeys] else if p.tag = 2 then [.connected] else []
  refine ⟨env, [.receive [[⟨.handshake, true, 3⟩], [⟨.app, true, 4⟩], [⟨.initial, true, 1⟩],
    [⟨.handshake, true, 2⟩]] 7], ⟨[⟨.handshake, true, 3⟩], 7⟩, by decide, by decide, fun more => ?_⟩
  generalize hd : (⟨[⟨.handshake, true, 3⟩], 7⟩ : Dg) = d
  let P : Conn → Prop := fun c =>
    c.hsDone = true ∧ c.store.avail ≠ some .handshake ∧ d ∈ c.store.hs
  have hkey : ∀ (c : Conn) k, P c → P (c.key k) := by
    intro c k h
    cases k with
    | hsKeys => unfold Conn.key; dsimp only; rw [if_pos h.1]; exact h
    | connected =>
      unfold Conn.key
      dsimp only
      split
      · exact h
      · have h1 := of_makeAvailable c.store .app .handshake
        dsimp only [Store.of] at h1
        refine ⟨h.1, ?_, ?_⟩
        · dsimp only
          rw [avail_makeAvailable]
          split
          · exact h.2.1
          · intro hx; cases hx
        · dsimp only; rw [h1]; exact h.2.2
    | early on => exact h
    | discardInitial => exact h
    | discardHs => unfold Conn.key; dsimp only; split <;> exact h
  refine (run_pres (P := P)
    (fun c op h => step_pres (P := P) (fun _ h => h) hkey ?_ ?_ c op h) more _ ?_).2.2
  · intro c t ps h
    refine input_pres (P := P) ?_ ?_ (fun _ _ _ _ h => h) ?_ t ps c h
    · intro c p c' h hp
      obtain ⟨ph, i, rfl⟩ := pre_cases hp
      exact h
    · intro c p t h _
      exact keys_pres hkey (env c.log p) c h
    · intro c p rest t h _
      rcases save_cases c p.ep (p :: rest) t with ⟨hl, he⟩ | ⟨_, he⟩
      · rw [he]
        refine ⟨h.1, ?_, ?_⟩
        · dsimp only; rw [avail_set]; exact h.2.1
        · cases p.ep with
          | handshake => exact List.mem_append_left _ h.2.2
          | _ => exact h.2.2
      · rw [he]; exact h
  · intro c e h ha
    refine ⟨h.1, ?_, ?_⟩
    · unfold taken
      dsimp only
      rw [avail_take]
      intro hx
      cases hx
    · show d ∈ (c.store.take.2).hs
      unfold Store.take
      rw [ha]
      cases e with
      | handshake => exact absurd ha h.2.1
      | _ => exact h.2.2
  · refine ⟨by decide, by decide, ?_⟩
    rw [← hd]
    decide

/-- Nor does the assertion always hold: when the packets of one call bring the
Handshake keys, complete the handshake and confirm it, while a Handshake packet
waits, the keys are gone before it is taken up. -/
theorem C103_assertion_fails : ∃ (env : List (Pkt × Nat) → Pkt → List KeyEv) (ops : List Op),
    (Conn.client.run env ops).failed = true := by
  refine ⟨fun _ p => if p.tag = 1 then [.hsKeys] else if p.tag = 2 then [.connected]
    else if p.tag = 5 then [.discardHs] else [],
    [.receive [[⟨.handshake, true, 3⟩], [⟨.initial, true, 1⟩], [⟨.handshake, true, 2⟩],
      [⟨.app, true, 5⟩]] 7], by decide⟩

/-! ## Forged packets -/

/-- Nothing but the record of dropped packets and the packets that wait differs. -/
def Same (c c' : Conn) : Prop :=
  c'.log = c.log ∧ c'.hs = c.hs ∧ c'.hsDone = c.hsDone ∧ c'.app = c.app ∧ c'.early = c.early ∧
    c'.phase = c.phase ∧ c'.server = c.server ∧ c'.store.avail = c.store.avail ∧
    (c.server = false → c'.initial = c.initial)

theorem Same.trans {a b c : Conn} (h : Same a b) (h' : Same b c) : Same a c := by
  obtain ⟨h1, h2, h3, h4, h5, h6, h7, h8, h9⟩ := h
  obtain ⟨g1, g2, g3, g4, g5, g6, g7, g8, g9⟩ := h'
  exact ⟨g1.trans h1, g2.trans h2, g3.trans h3, g4.trans h4, g5.trans h5, g6.trans h6, g7.trans h7,
    g8.trans h8, fun h => (g9 (h7.trans h)).trans (h9 h)⟩

theorem same_refl (c : Conn) : Same c c := ⟨rfl, rfl, rfl, rfl, rfl, rfl, rfl, rfl, fun _ => rfl⟩

theorem forged_input (t : Nat) : ∀ (ps : List Pkt) (c : Conn), c.phase ≠ .init →
    (∀ p ∈ ps, p.auth = false) → Same c (c.input env t ps)
  | [], c, _, _ => same_refl c
  | p :: rest, c, hph, hf => by
    have hrest : ∀ q ∈ rest, q.auth = false := fun q hq => hf q (by simp [hq])
    have hp := hf p (by simp)
    unfold Conn.input
    have hpre : ∃ c', c.pre p = some c' ∧ Same c c' := by
      unfold Conn.pre
      cases hx : c.phase with
      | init => exact absurd hx hph
      | wait => exact ⟨c, rfl, same_refl c⟩
      | on =>
        refine ⟨_, rfl, ?_⟩
        split
        · rename_i h
          refine ⟨rfl, rfl, rfl, rfl, rfl, hx.symm ▸ rfl, rfl, rfl, fun hs => ?_⟩
          rw [h.1] at hs
          cases hs
        · exact same_refl c
    obtain ⟨c', he, hsame⟩ := hpre
    rw [he]
    dsimp only
    have hph' : c'.phase ≠ .init := by rw [hsame.2.2.2.2.2.1]; exact hph
    have hl : ∀ w, Same c' (c'.lose w [p] t) := fun _ =>
      ⟨rfl, rfl, rfl, rfl, rfl, rfl, rfl, rfl, fun _ => rfl⟩
    cases hs : c'.status p.ep with
    | ready =>
      dsimp only
      rw [hp, if_neg (by decide)]
      exact (hsame.trans (hl _)).trans (forged_input t rest _ hph' hrest)
    | pending =>
      dsimp only
      refine hsame.trans ?_
      rcases save_cases c' p.ep (p :: rest) t with ⟨_, he⟩ | ⟨_, he⟩
      · rw [he]
        exact ⟨rfl, rfl, rfl, rfl, rfl, rfl, rfl, avail_set _ _ _, fun _ => rfl⟩
      · rw [he]; exact ⟨rfl, rfl, rfl, rfl, rfl, rfl, rfl, rfl, fun _ => rfl⟩
    | gone => exact (hsame.trans (hl _)).trans (forged_input t rest _ hph' hrest)

/-- Forged packets are not opened and change no keys, except a server's Initial
keys.

Missing from the full property: those (`C104_forged_stops_server`), and the room
for packets that come before their keys (`C104_room_taken`). -/
theorem C104_no_effect_partial (env : List (Pkt × Nat) → Pkt → List KeyEv) (c : Conn)
    (hav : c.store.avail = none) (hph : c.phase ≠ .init) (ds : List (List Pkt)) (t : Nat)
    (hf : ∀ d ∈ ds, ∀ p ∈ d, p.auth = false) :
    let c' := c.step env (.receive ds t)
    c'.log = c.log ∧ c'.hs = c.hs ∧ c'.app = c.app ∧ c'.early = c.early ∧
      (c.server = false → c'.initial = c.initial) := by
  have key : ∀ (ds : List (List Pkt)) (c : Conn), c.phase ≠ .init →
      (∀ d ∈ ds, ∀ p ∈ d, p.auth = false) →
      Same c (ds.foldl (fun c d => c.input env t d) c) := by
    intro ds
    induction ds with
    | nil => intro c _ _; exact same_refl c
    | cons d ds ih =>
      intro c hph hf
      have h1 := forged_input (env := env) t d c hph (hf d (by simp))
      have hph' : (c.input env t d).phase ≠ .init := by rw [h1.2.2.2.2.2.1]; exact hph
      exact h1.trans (ih _ hph' (fun d hd => hf d (by simp [hd])))
  have h := key ds { c with evs := [] } hph hf
  dsimp only
  unfold Conn.step
  dsimp only
  have h8 := h.2.2.2.2.2.2.2.1
  dsimp only at h8
  rw [hav] at h8
  unfold Conn.processSaved
  rw [h8]
  exact ⟨h.1, h.2.1, h.2.2.2.1, h.2.2.2.2.1, h.2.2.2.2.2.2.2.2⟩

/-- One Handshake packet, whoever made it, that reaches a server after the first
and before the last packet with the client's first message ends the handshake:
Initial keys are discarded before the packet is opened, and whatever comes later
is not opened and leads to no keys.  (0-RTT packets carry nothing of the
handshake.) -/
theorem C104_forged_stops_server (env : List (Pkt × Nat) → Pkt → List KeyEv)
    (henv : ∀ log p, p.ep = .zeroRtt → KeyEv.hsKeys ∉ env log p) (c : Conn) (hfl : Flags c)
    (hav : c.store.avail = none)
    (hsrv : c.server = true) (hph : c.phase = .on) (hno : c.hsDone = false) (p : Pkt)
    (hp : p.ep = .handshake) (t : Nat) (ops : List Op) :
    (c.run env (.receive [[p]] t :: ops)).app = false ∧
      (c.run env (.receive [[p]] t :: ops)).hs = false := by
  let P : Conn → Prop := fun c => Flags c ∧ c.server = true ∧ c.phase = .on ∧ c.hsDone = false ∧
    c.initial = false
  have hstep : ∀ c op, P c → P (c.step env op) := by
    have hproc : ∀ (c : Conn) p t, P c → c.status p.ep = .ready → P (c.process env p t) := by
      intro c p t h hs
      have hep : p.ep = .zeroRtt := by
        have happ : c.app = false := by
          cases hx : c.app with
          | false => rfl
          | true => have := h.1.app hx; rw [h.2.2.2.1] at this; cases this
        have hhs : c.hs = false := by
          cases hx : c.hs with
          | false => rfl
          | true => have := h.1.hs hx; rw [h.2.2.2.1] at this; cases this
        cases hx : p.ep with
        | zeroRtt => rfl
        | initial => rw [hx] at hs; simp [Conn.status, h.2.2.2.2] at hs
        | handshake => rw [hx] at hs; simp [Conn.status, hhs, h.2.2.2.2] at hs
        | app => rw [hx] at hs; simp [Conn.status, happ] at hs
      have hn := henv c.log p hep
      have key : ∀ (ks : List KeyEv) (c : Conn), KeyEv.hsKeys ∉ ks → P c → P (ks.foldl Conn.key c) := by
        intro ks
        induction ks with
        | nil => intro c _ h; exact h
        | cons k ks ih =>
          intro c hn h
          refine ih _ (fun hx => hn (by simp [hx])) ⟨h.1.key k, ?_⟩
          cases k with
          | hsKeys => simp at hn
          | connected =>
            unfold Conn.key
            dsimp only
            rw [if_pos (by simp [h.2.2.2.1])]
            exact h.2
          | early on => exact h.2
          | discardInitial => exact ⟨h.2.1, h.2.2.1, h.2.2.2.1, rfl⟩
          | discardHs => unfold Conn.key; dsimp only; split <;> exact h.2
      have := key _ c hn h
      unfold Conn.process
      exact ⟨⟨this.1.hs, this.1.app, this.1.availHs, this.1.availApp, this.1.avail⟩,
        this.2.1, rfl, this.2.2.2.1, this.2.2.2.2⟩
    have hin : ∀ (c : Conn) t ps, P c → P (c.input env t ps) := by
      intro c t ps h
      refine input_pres (P := P) ?_ hproc ?_ ?_ t ps c h
      · intro c p c' h hp
        unfold Conn.pre at hp
        rw [h.2.2.1] at hp
        have hp := (Option.some.inj hp).symm
        split at hp
        · rw [hp]
          exact ⟨⟨h.1.hs, h.1.app, h.1.availHs, h.1.availApp, h.1.avail⟩, h.2.1, rfl, h.2.2.2.1, rfl⟩
        · rw [hp]; exact h
      · intro c w ps t h
        exact ⟨⟨h.1.hs, h.1.app, h.1.availHs, h.1.availApp, h.1.avail⟩, h.2⟩
      · intro c p rest t h _
        rcases save_cases c p.ep (p :: rest) t with ⟨_, he⟩ | ⟨_, he⟩
        · rw [he]
          refine ⟨⟨h.1.hs, h.1.app, ?_, ?_, ?_⟩, h.2⟩ <;> dsimp only <;> rw [avail_set]
          · exact h.1.availHs
          · exact h.1.availApp
          · exact h.1.avail
        · rw [he]; exact ⟨⟨h.1.hs, h.1.app, h.1.availHs, h.1.availApp, h.1.avail⟩, h.2⟩
    have hconn : ∀ (c : Conn), P c → c.key .connected = c := by
      intro c h
      unfold Conn.key
      dsimp only
      rw [if_pos (by simp [h.2.2.2.1])]
    have hevs : ∀ (c : Conn), P c → P { c with evs := [] } := fun c h =>
      ⟨⟨h.1.hs, h.1.app, h.1.availHs, h.1.availApp, h.1.avail⟩, h.2⟩
    have htake : ∀ (c : Conn) e, P c → c.store.avail = some e → P (taken c e) := fun c e h _ =>
      ⟨h.1.take e, h.2⟩
    intro c op h
    unfold Conn.step
    cases op with
    | receive ds now =>
      exact processSaved_pres hin htake _ _ (foldl_pres (P := P) (f := fun c d => c.input env now d)
        (fun c d hc => hin c _ _ hc) _ _ (hevs c h))
    | authenticated done =>
      refine processSaved_pres hin htake _ _ ?_
      cases done with
      | true =>
        rw [if_pos rfl, hconn _ (hevs c h)]
        exact hevs c h
      | false => exact hevs c h
    | sent =>
      dsimp only
      have hhs : c.hs = false := by
        cases hx : c.hs with
        | false => rfl
        | true => have := h.1.hs hx; rw [h.2.2.2.1] at this; cases this
      rw [hhs, if_neg (by decide)]
      have := hevs c h
      rw [hhs] at this
      exact this
  have hfin : ∀ c, P c → c.app = false ∧ c.hs = false := by
    intro c h
    constructor
    · cases hx : c.app with
      | false => rfl
      | true => have := h.1.app hx; rw [h.2.2.2.1] at this; cases this
    · cases hx : c.hs with
      | false => rfl
      | true => have := h.1.hs hx; rw [h.2.2.2.1] at this; cases this
  rw [Conn.run]
  refine hfin _ (run_pres hstep ops _ ?_)
  have hhs : c.hs = false := by
    cases hx : c.hs with
    | false => rfl
    | true => have := hfl.hs hx; rw [hno] at this; cases this
  unfold Conn.step
  dsimp only [List.foldl_cons, List.foldl_nil]
  have hin : ({ c with evs := [] } : Conn).input env t [p] =
      ({ c with evs := [], initial := false } : Conn).lose .noKeys [p] t := by
    unfold Conn.input Conn.pre
    dsimp only
    rw [hph]
    dsimp only
    rw [if_pos ⟨hsrv, hp⟩, hp]
    dsimp only [Conn.status]
    rw [hhs]
    rfl
  rw [hin]
  unfold Conn.processSaved Conn.lose
  dsimp only
  rw [hav]
  exact ⟨⟨hfl.hs, hfl.app, hfl.availHs, hfl.availApp, hfl.avail⟩, hsrv, hph, hno, rfl⟩

/-- Forged packets can take the room of packets that come before their keys: four
are enough, and the peer's packet is dropped. -/
theorem C104_room_taken : ∃ (env : List (Pkt × Nat) → Pkt → List KeyEv) (forged : List (List Pkt))
    (p : Pkt), (∀ d ∈ forged, ∀ q ∈ d, q.auth = false) ∧ p.auth = true ∧ forged.length = 4 ∧
      (p, 1) ∈ Spec.waiting (Conn.client.run env [.receive [[p]] 1]) ∧
      (p, 1) ∈ Spec.dropped (Conn.client.run env [.receive forged 0, .receive [[p]] 1]) := by
  refine ⟨fun _ _ => [], List.replicate 4 [⟨.app, false, 0⟩], ⟨.app, true, 1⟩, ?_⟩
  refine ⟨by decide, by decide, by decide, by decide, by decide⟩

/-! ## Examples -/

/-- A client that verifies a certificate: Handshake and 1-RTT packets come before
the first Initial packet; Handshake packets are taken up in the same call, the
1-RTT packet after `authenticated`, each with the time at which it came. -/
example :
    let env : List (Pkt × Nat) → Pkt → List KeyEv := fun _ p => if p.tag = 1 then [.hsKeys] else []
    let ops : List Op := [.receive [[⟨.handshake, true, 2⟩, ⟨.app, true, 3⟩]] 5,
      .receive [[⟨.initial, true, 1⟩]] 9, .authenticated true]
    Spec.Separate env .client ops ∧
      (Conn.client.run env ops).log =
        [(⟨.initial, true, 1⟩, 9), (⟨.handshake, true, 2⟩, 5), (⟨.app, true, 3⟩, 5)] ∧
      Spec.waiting (Conn.client.run env ops) = [] := by
  refine ⟨?_, by decide, by decide⟩
  simp only [Spec.Separate, and_true]
  refine ⟨by decide, by decide, by decide⟩

/-- The hypotheses of `C104_forged_stops_server` are met after the first of two
packets with the client's first message; without the forged packet the second one
brings the keys. -/
example :
    let env : List (Pkt × Nat) → Pkt → List KeyEv := fun _ p => if p.tag = 2 then [.hsKeys] else []
    let c := Conn.fresh.run env [.receive [[⟨.initial, true, 1⟩]] 0]
    Flags c ∧ c.store.avail = none ∧ c.server = true ∧ c.phase = .on ∧ c.hsDone = false ∧
      (c.run env [.receive [[⟨.initial, true, 2⟩]] 1]).hs = true ∧
      (c.run env [.receive [[⟨.handshake, false, 9⟩]] 1, .receive [[⟨.initial, true, 2⟩]] 2]).hs =
        false := by
  refine ⟨⟨by decide, by decide, by decide, by decide, by decide⟩, by decide, by decide, by decide,
    by decide, by decide, by decide⟩

end Neqo.Saved
