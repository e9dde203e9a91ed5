import Verif.Streams.Sim
import Verif.Sched.Runs

/-! The invariant of the streams of a connection, and what keeps it. -/

namespace Neqo.Strs

open Neqo.Flow (SFc RFc)
open Neqo.Sched (Writer Sched imFind)

variable {σ γ : Type}

/-- A stream that was opened. -/
def Known (s : State σ) (n : SType → Nat) (id : Nat) : Prop :=
  if isLocal s.role id then index id < (s.loc (typeOf id)).used else index id < n (typeOf id)

/-- Limits on streams do not pass what closed streams make room for, and get there. -/
structure LimOk (r : RFc) : Prop where
  le : r.maxAllowed ≤ r.nextLimit
  pend : r.maxAllowed < r.nextLimit → r.framePending = true

/-- The invariant; `n` counts the streams that the peer opened. -/
structure Inv (s : State σ) (n : SType → Nat) : Prop where
  sok : Sched.SOk s.send
  srt : s.recv.Sorted
  cfg : s.cfg.Ok
  loc : ∀ t, (s.loc t).used ≤ (s.loc t).limit
  peer : ∀ t, 0 < (s.loc t).limit → s.peer.isSome = true
  next : ∀ t, (s.remote t).next = nth t s.role.other (n t)
  allowed : ∀ t, n t ≤ (s.remote t).fc.maxAllowed
  active : ∀ t, (s.remote t).fc.maxActive = s.cfg.streams t
  lim : ∀ t, LimOk (s.remote t).fc
  cnt : ∀ t, (s.remote t).fc.retired + (live t s).length = n t
  rknown : ∀ id ∈ s.recv.map (·.1), isSendOnly s.role id = false ∧ Known s n id
  sknown : ∀ id ∈ s.send.map.map (·.1), isRecvOnly s.role id = false ∧ Known s n id
  pair : ∀ id ∈ s.send.map.map (·.1), isBidi id = true → id ∈ s.recv.map (·.1)
  sim : Sim s.ses s.recv

theorem inv_new {role : Role} {cfg : Cfg} (hc : cfg.Ok) : Inv (State.new role cfg : State σ) (fun _ => 0) where
  sok := Sched.SOk.nil
  srt := SMap.sorted_nil
  cfg := hc
  loc t := by cases t <;> exact Nat.le_refl _
  peer t h := by cases t <;> exact absurd h (Nat.lt_irrefl _)
  next t := by cases t <;> cases role <;> rfl
  allowed t := Nat.zero_le _
  active t := by cases t <;> rfl
  lim t := by
    have h1 : cfg.streams t ≤ 2 ^ 60 := hc.streams t
    have h2 : min (0 + cfg.streams t) Flow.maxVarint = cfg.streams t := by
      unfold Flow.maxVarint
      omega
    have h3 : LimOk (RFc.new (cfg.streams t)) :=
      ⟨Nat.le_of_eq h2.symm, fun h => absurd h (by
        show ¬ cfg.streams t < min (0 + cfg.streams t) Flow.maxVarint
        omega)⟩
    cases t <;> exact h3
  cnt t := by cases t <;> rfl
  rknown id h := by cases h
  sknown id h := by cases h
  pair id h := by cases h
  sim := sim_new hc.data

/-- Changes that do not matter to most of the invariant. -/
structure Same (s s' : State σ) : Prop where
  role : s'.role = s.role
  cfg : s'.cfg = s.cfg
  rb : s'.rb = s.rb
  ru : s'.ru = s.ru
  lb : s'.lb = s.lb
  lu : s'.lu = s.lu
  peer : s.peer.isSome = true → s'.peer.isSome = true
  recv : s'.recv.map (·.1) = s.recv.map (·.1)
  send : s'.send.map.map (·.1) = s.send.map.map (·.1)

theorem Same.loc {s s' : State σ} (h : Same s s') (t : SType) : s'.loc t = s.loc t := by
  cases t
  · exact h.lb
  · exact h.lu

theorem Same.remote {s s' : State σ} (h : Same s s') (t : SType) : s'.remote t = s.remote t := by
  cases t
  · exact h.rb
  · exact h.ru

theorem Same.known {s s' : State σ} (h : Same s s') (n : SType → Nat) (id : Nat) : Known s' n id ↔ Known s n id := by
  unfold Known
  rw [h.role, h.loc]

theorem Same.live {s s' : State σ} (h : Same s s') (t : SType) : live t s' = live t s := by
  unfold Strs.live
  rw [h.recv, h.role]

theorem Inv.same {s s' : State σ} {n : SType → Nat} (h : Inv s n) (hs : Same s s') (h1 : Sched.SOk s'.send)
    (h2 : s'.recv.Sorted) (h3 : Sim s'.ses s'.recv) : Inv s' n where
  sok := h1
  srt := h2
  cfg := by rw [hs.cfg]; exact h.cfg
  loc t := by rw [hs.loc]; exact h.loc t
  peer t := by rw [hs.loc]; exact fun hh => hs.peer (h.peer t hh)
  next t := by rw [hs.remote, hs.role]; exact h.next t
  allowed t := by rw [hs.remote]; exact h.allowed t
  active t := by rw [hs.remote, hs.cfg]; exact h.active t
  lim t := by rw [hs.remote]; exact h.lim t
  cnt t := by rw [hs.remote, hs.live]; exact h.cnt t
  rknown id hid := by rw [hs.recv] at hid; rw [hs.role, hs.known]; exact h.rknown id hid
  sknown id hid := by rw [hs.send] at hid; rw [hs.role, hs.known]; exact h.sknown id hid
  pair id hid := by rw [hs.send] at hid; rw [hs.recv]; exact h.pair id hid
  sim := h3

/-- Own stream limits change. -/
theorem Inv.setLoc {s : State σ} {n : SType → Nat} (h : Inv s n) (l : SFc) (t : SType)
    (hu : l.used = (s.loc t).used) (hl : l.used ≤ l.limit) (hp : 0 < l.limit → s.peer.isSome = true) :
    Inv (s.setLoc l t) n := by
  have hloc : ∀ t', ((s.setLoc l t).loc t').used = (s.loc t').used := by
    intro t'
    cases t <;> cases t' <;> first | rfl | exact hu
  have hk : ∀ id, Known (s.setLoc l t) n id ↔ Known s n id := by
    intro id
    unfold Known
    rw [hloc]
    cases t <;> exact Iff.rfl
  constructor
  · cases t <;> exact h.sok
  · cases t <;> exact h.srt
  · cases t <;> exact h.cfg
  · intro t'; cases t <;> cases t' <;> first | exact hl | exact h.loc .bidi | exact h.loc .uni
  · intro t'; cases t <;> cases t' <;> first | exact hp | exact h.peer .bidi | exact h.peer .uni
  · intro t'; cases t <;> exact h.next t'
  · intro t'; cases t <;> exact h.allowed t'
  · intro t'; cases t <;> exact h.active t'
  · intro t'; cases t <;> exact h.lim t'
  · intro t'; cases t <;> exact h.cnt t'
  · intro id hid
    rw [hk]
    cases t <;> exact h.rknown id hid
  · intro id hid
    rw [hk]
    cases t <;> exact h.sknown id hid
  · cases t <;> exact h.pair
  · cases t <;> exact h.sim

theorem update_used (l : SFc) (m : Nat) : (l.update m).1.used = l.used := by
  unfold SFc.update
  split <;> rfl

theorem update_limit (l : SFc) (m : Nat) : (l.update m).1.limit = max l.limit m := by
  unfold SFc.update
  split
  · show m = _; omega
  · show l.limit = _; omega

theorem blocked_keeps (l : SFc) : l.blocked.used = l.used ∧ l.blocked.limit = l.limit := by
  unfold SFc.blocked
  split
  · split <;> exact ⟨rfl, rfl⟩
  · exact ⟨rfl, rfl⟩

theorem lost_keeps (l : SFc) (m : Nat) : (l.frameLost m).used = l.used ∧ (l.frameLost m).limit = l.limit := by
  unfold SFc.frameLost
  split
  · split <;> exact ⟨rfl, rfl⟩
  · exact ⟨rfl, rfl⟩

theorem write_keeps (l : SFc) (b : Bool) : (l.write b).1.used = l.used ∧ (l.write b).1.limit = l.limit := by
  unfold SFc.write
  split
  · split <;> exact ⟨rfl, rfl⟩
  · exact ⟨rfl, rfl⟩

/-- The peer's stream limits change. -/
theorem Inv.setRemote {s : State σ} {n : SType → Nat} (h : Inv s n) (r : Remote) (t : SType)
    (hn : r.next = (s.remote t).next) (hr : r.fc.retired = (s.remote t).fc.retired)
    (ha : r.fc.maxActive = (s.remote t).fc.maxActive) (h1 : (s.remote t).fc.maxAllowed ≤ r.fc.maxAllowed)
    (h2 : LimOk r.fc) : Inv (s.setRemote r t) n := by
  have hrem : ∀ t', (s.setRemote r t).remote t' = if t' = t then r else s.remote t' := by
    intro t'
    cases t <;> cases t' <;> rfl
  have hk : ∀ id, Known (s.setRemote r t) n id ↔ Known s n id := by
    intro id
    cases t <;> exact Iff.rfl
  constructor
  · cases t <;> exact h.sok
  · cases t <;> exact h.srt
  · cases t <;> exact h.cfg
  · intro t'; cases t <;> exact h.loc t'
  · intro t'; cases t <;> exact h.peer t'
  · intro t'
    have : (s.setRemote r t).role = s.role := by cases t <;> rfl
    rw [hrem, this]
    split
    · rename_i hh; rw [hn, hh]; exact h.next t
    · exact h.next t'
  · intro t'
    rw [hrem]
    split
    · rename_i hh; rw [hh]; exact Nat.le_trans (h.allowed t) h1
    · exact h.allowed t'
  · intro t'
    have : (s.setRemote r t).cfg = s.cfg := by cases t <;> rfl
    rw [hrem, this]
    split
    · rename_i hh; rw [ha, hh]; exact h.active t
    · exact h.active t'
  · intro t'
    rw [hrem]
    split
    · exact h2
    · exact h.lim t'
  · intro t'
    have : live t' (s.setRemote r t) = live t' s := by cases t <;> rfl
    rw [hrem, this]
    split
    · rename_i hh; rw [hr, hh]; exact h.cnt t
    · exact h.cnt t'
  · intro id hid
    rw [hk]
    cases t <;> exact h.rknown id hid
  · intro id hid
    rw [hk]
    cases t <;> exact h.sknown id hid
  · cases t <;> exact h.pair
  · cases t <;> exact h.sim

theorem mem_keys_insert {β : Type} {m : SMap β} (hs : m.Sorted) {k j : Nat} {v : β} :
    j ∈ (SMap.insert m k v).map (·.1) ↔ j = k ∨ j ∈ m.map (·.1) := by
  rw [(hs.insert k v).mem_keys, hs.mem_keys, hs.find_insert]
  by_cases hj : j = k
  · rw [if_pos hj]
    exact ⟨fun _ => Or.inl hj, fun _ => ⟨v, rfl⟩⟩
  · rw [if_neg hj]
    exact ⟨Or.inr, fun h => h.resolve_left hj⟩

theorem mem_imInsert {α : Type} {m : List (Nat × α)} {k j : Nat} {v : α} :
    j ∈ (Sched.imInsert m k v).map (·.1) ↔ j = k ∨ j ∈ m.map (·.1) := by
  rw [← Sched.imFind_isSome, ← Sched.imFind_isSome, Sched.imFind_imInsert]
  by_cases hj : j = k
  · rw [if_pos hj]
    exact ⟨fun _ => Or.inl hj, fun _ => rfl⟩
  · rw [if_neg hj]
    exact ⟨Or.inr, fun h => h.resolve_left hj⟩

/-- Counting keys that satisfy something, after an insertion. -/
theorem filter_keys_insert {β : Type} {m : SMap β} {k : Nat} (v : β) (hn : k ∉ m.map (·.1)) (p : Nat → Bool) :
    (((SMap.insert m k v).map (·.1)).filter p).length = ((m.map (·.1)).filter p).length + if p k then 1 else 0 := by
  have hm : ∀ e ∈ m, e.1 ≠ k := fun e he hh => hn (List.mem_map.mpr ⟨e, he, hh⟩)
  have : ((m.map (·.1)).filter p).length =
      (((SMap.below m k).map (·.1)).filter p).length + (((SMap.above m k).map (·.1)).filter p).length := by
    unfold SMap.below SMap.above
    clear hn
    induction m with
    | nil => rfl
    | cons e m ih =>
      have ih := ih (fun e he => hm e (List.mem_cons_of_mem _ he))
      have hne := hm e List.mem_cons_self
      simp only [List.map_cons, List.filter_cons]
      by_cases hlt : e.1 < k
      · have h2 : ¬ k < e.1 := by omega
        simp only [hlt, h2, decide_true, decide_false, if_true, List.map_cons, List.filter_cons]
        by_cases hp : p e.1 = true
        · simp only [hp, if_true, List.length_cons]; simp; omega
        · simp only [hp]; simp; exact ih
      · have h2 : k < e.1 := by omega
        simp only [hlt, h2, decide_true, decide_false, if_true, List.map_cons, List.filter_cons]
        by_cases hp : p e.1 = true
        · simp only [hp, if_true, List.length_cons]; simp; omega
        · simp only [hp]; simp; exact ih
  rw [this]
  unfold SMap.insert
  simp only [List.map_append, List.map_cons, List.filter_append, List.filter_cons, List.length_append]
  split
  · simp; omega
  · simp

/-- One more stream of a type. -/
def bump (n : SType → Nat) (t : SType) : SType → Nat := fun t' => if t' = t then n t + 1 else n t'

theorem known_mono {s s' : State σ} {n n' : SType → Nat} (hr : s'.role = s.role)
    (hl : ∀ t, (s.loc t).used ≤ (s'.loc t).used) (hn : ∀ t, n t ≤ n' t) {id : Nat} (h : Known s n id) :
    Known s' n' id := by
  unfold Known at h ⊢
  rw [hr]
  split
  · rename_i hh
    rw [if_pos hh] at h
    exact Nat.lt_of_lt_of_le h (hl _)
  · rename_i hh
    rw [if_neg hh] at h
    exact Nat.lt_of_lt_of_le h (hn _)

theorem le_bump (n : SType → Nat) (t t' : SType) : n t' ≤ bump n t t' := by
  unfold bump
  split
  · rename_i h; rw [h]; exact Nat.le_succ _
  · exact Nat.le_refl _

/-- The peer's next stream is not known yet. -/
theorem Inv.fresh_remote {s : State σ} {n : SType → Nat} (_h : Inv s n) (t : SType) :
    ¬ Known s n (nth t s.role.other (n t)) := by
  unfold Known
  have h1 := isRemote_nth t s.role (n t)
  unfold isRemote at h1
  rw [if_neg (by simpa using h1), index_nth, typeOf_nth]
  exact Nat.lt_irrefl _

theorem Inv.fresh_local {s : State σ} {n : SType → Nat} (_h : Inv s n) (t : SType) :
    ¬ Known s n (nth t s.role (s.loc t).used) := by
  unfold Known
  rw [if_pos (by rw [isLocal_nth]; simp), index_nth, typeOf_nth]
  exact Nat.lt_irrefl _

/-- What opening streams of the peer does not change. -/
structure Opens (s s' : State σ) : Prop where
  role : s'.role = s.role
  cfg : s'.cfg = s.cfg
  peer : s'.peer = s.peer
  conn : s'.conn = s.conn
  ses : s'.ses = s.ses
  loc : ∀ t, s'.loc t = s.loc t
  fc : ∀ t, (s'.remote t).fc = (s.remote t).fc
  ended : s'.recvEnded = s.recvEnded
  sended : s'.send.hasEnded = s.send.hasEnded

theorem Opens.refl (s : State σ) : Opens s s := ⟨rfl, rfl, rfl, rfl, rfl, fun _ => rfl, fun _ => rfl, rfl, rfl⟩

theorem Opens.trans {a b c : State σ} (h : Opens a b) (k : Opens b c) : Opens a c :=
  ⟨k.role.trans h.role, k.cfg.trans h.cfg, k.peer.trans h.peer, k.conn.trans h.conn, k.ses.trans h.ses,
    fun t => (k.loc t).trans (h.loc t), fun t => (k.fc t).trans (h.fc t), k.ended.trans h.ended,
    k.sended.trans h.sended⟩

/-- The peer's next stream opens. -/
theorem openOne_spec (K : Kind σ γ) {s : State σ} {n : SType → Nat} (h : Inv s n) (t : SType)
    (hp : s.peer.isSome = true) (ha : n t < (s.remote t).fc.maxAllowed) :
    ∃ s', openOne K (s.setRemote { s.remote t with next := (s.remote t).next + 4 } t) (nth t s.role.other (n t)) = .ok s' ∧
      Inv s' (bump n t) ∧ Opens s s' ∧
      (∃ m, s'.recv = SMap.insert s.recv (nth t s.role.other (n t)) (.new m)) ∧
      ((t = .uni ∧ s'.send = s.send) ∨ (t = .bidi ∧ ∃ l, s'.send = s.send.insert (nth t s.role.other (n t))
        (K.new (nth t s.role.other (n t)) l))) := by
  obtain ⟨p, hp⟩ := Option.isSome_iff_exists.mp hp
  have hfr := h.fresh_remote t
  have hnr : nth t s.role.other (n t) ∉ s.recv.map (·.1) := fun hh => hfr (h.rknown _ hh).2
  have hns : nth t s.role.other (n t) ∉ s.send.map.map (·.1) := fun hh => hfr (h.sknown _ hh).2
  have hnew : ∀ n', Known s (bump n t) (nth t s.role.other n') ↔ n' < n t + 1 := by
    intro n'
    unfold Known
    have h1 := isRemote_nth t s.role n'
    unfold isRemote at h1
    rw [if_neg (by simpa using h1), index_nth, typeOf_nth]
    unfold bump
    rw [if_pos rfl]
  have hk : ∀ id, Known s n id → Known s (bump n t) id := fun id hh =>
    known_mono rfl (fun _ => Nat.le_refl _) (le_bump n t) hh
  have hlive : ∀ (m : Nat) (t' : SType),
      (((SMap.insert s.recv (nth t s.role.other (n t)) (RecvS.State.new m)).map (·.1)).filter
        (fun id => isRemote s.role id && decide (typeOf id = t'))).length = (live t' s).length + if t' = t then 1 else 0 := by
    intro m t'
    rw [filter_keys_insert _ hnr]
    unfold live
    rw [isRemote_nth, typeOf_nth]
    by_cases htt : t' = t
    · rw [htt]; simp
    · rw [if_neg htt]; simp; exact fun hh => htt hh.symm
  have hso : isSendOnly s.role (nth t s.role.other (n t)) = false := by
    have h1 := isRemote_nth t s.role (n t)
    unfold isRemote at h1
    unfold isSendOnly
    cases hh : isLocal s.role (nth t s.role.other (n t)) with
    | true => rw [hh] at h1; cases h1
    | false => simp
  unfold openOne
  cases t with
  | bidi =>
    have hb : isBidi (nth .bidi s.role.other (n .bidi)) = true := by rw [isBidi_nth]; rfl
    rw [hb]
    dsimp only [State.setRemote]
    rw [if_pos rfl, if_pos rfl, hp]
    refine ⟨_, rfl, ?_, ⟨rfl, rfl, hp.symm, rfl, rfl, (fun t => by cases t <;> rfl), (fun t => by cases t <;> rfl), rfl, rfl⟩,
      ⟨_, rfl⟩, Or.inr ⟨rfl, _, rfl⟩⟩
    constructor
    · exact Sched.insert_ok h.sok _ (Sched.imFind_eq_none.mpr hns)
    · exact h.srt.insert _ _
    · exact h.cfg
    · intro t; cases t <;> first | exact h.loc .bidi | exact h.loc .uni
    · intro t; cases t <;> exact fun _ => rfl
    · intro t
      cases t
      · have : s.rb.next = _ := h.next .bidi
        show s.rb.next + 4 = nth .bidi s.role.other (n .bidi + 1)
        rw [this]
        unfold nth
        omega
      · exact h.next .uni
    · intro t
      cases t
      · exact ha
      · exact h.allowed .uni
    · intro t; cases t <;> first | exact h.active .bidi | exact h.active .uni
    · intro t; cases t <;> first | exact h.lim .bidi | exact h.lim .uni
    · intro t'
      have h1 := hlive s.cfg.bidiRemote t'
      have h2 := h.cnt t'
      unfold live
      cases t'
      · show s.rb.fc.retired + _ = n .bidi + 1
        rw [h1, if_pos rfl]
        have h2 : s.rb.fc.retired + _ = _ := h2
        omega
      · show s.ru.fc.retired + _ = n .uni
        rw [h1, if_neg (by decide)]
        exact h2
    · intro id hid
      rcases (mem_keys_insert h.srt).mp hid with rfl | hid
      · exact ⟨hso, (hnew _).mpr (Nat.lt_succ_self _)⟩
      · exact ⟨(h.rknown id hid).1, hk id (h.rknown id hid).2⟩
    · intro id hid
      rcases mem_imInsert.mp hid with rfl | hid
      · refine ⟨?_, (hnew _).mpr (Nat.lt_succ_self _)⟩
        unfold isRecvOnly; rw [hb]; rfl
      · exact ⟨(h.sknown id hid).1, hk id (h.sknown id hid).2⟩
    · intro id hid hbi
      rw [mem_keys_insert h.srt]
      rcases mem_imInsert.mp hid with rfl | hid
      · exact Or.inl rfl
      · exact Or.inr (h.pair id hid hbi)
    · exact h.sim.insert h.srt hnr h.cfg.bidiRemote
  | uni =>
    have hb : isBidi (nth .uni s.role.other (n .uni)) = false := by rw [isBidi_nth]; rfl
    rw [hb]
    dsimp only [State.setRemote]
    rw [if_neg (by decide), if_neg (by decide)]
    refine ⟨_, rfl, ?_, ⟨rfl, rfl, rfl, rfl, rfl, (fun t => by cases t <;> rfl), (fun t => by cases t <;> rfl), rfl, rfl⟩,
      ⟨_, rfl⟩, Or.inl ⟨rfl, rfl⟩⟩
    constructor
    · exact h.sok
    · exact h.srt.insert _ _
    · exact h.cfg
    · intro t; cases t <;> first | exact h.loc .bidi | exact h.loc .uni
    · intro t; cases t <;> first | exact h.peer .bidi | exact h.peer .uni
    · intro t
      cases t
      · exact h.next .bidi
      · have : s.ru.next = _ := h.next .uni
        show s.ru.next + 4 = nth .uni s.role.other (n .uni + 1)
        rw [this]
        unfold nth
        omega
    · intro t
      cases t
      · exact h.allowed .bidi
      · exact ha
    · intro t; cases t <;> first | exact h.active .bidi | exact h.active .uni
    · intro t; cases t <;> first | exact h.lim .bidi | exact h.lim .uni
    · intro t'
      have h1 := hlive s.cfg.uni t'
      have h2 := h.cnt t'
      unfold live
      cases t'
      · show s.rb.fc.retired + _ = n .bidi
        rw [h1, if_neg (by decide)]
        exact h2
      · show s.ru.fc.retired + _ = n .uni + 1
        rw [h1, if_pos rfl]
        have h2 : s.ru.fc.retired + _ = _ := h2
        omega
    · intro id hid
      rcases (mem_keys_insert h.srt).mp hid with rfl | hid
      · exact ⟨hso, (hnew _).mpr (Nat.lt_succ_self _)⟩
      · exact ⟨(h.rknown id hid).1, hk id (h.rknown id hid).2⟩
    · intro id hid
      exact ⟨(h.sknown id hid).1, hk id (h.sknown id hid).2⟩
    · intro id hid hbi
      rw [mem_keys_insert h.srt]
      exact Or.inr (h.pair id hid hbi)
    · exact h.sim.insert h.srt hnr h.cfg.uni

end Neqo.Strs
