import Verif.Streams.Inv

/-! Streams that the peer opens. -/

namespace Neqo.Strs

open Neqo.Flow (SFc RFc)
open Neqo.Sched (Writer Sched imFind)

variable {σ γ : Type}

/-- At least `m` streams of a type. -/
def upTo (n : SType → Nat) (t : SType) (m : Nat) : SType → Nat := fun t' => if t' = t then max (n t) m else n t'

/-- Streams are added; the others stay, and the new ones have not ended. -/
structure Grown (K : Kind σ γ) (s s' : State σ) : Prop where
  send : ∀ id x, imFind s.send.map id = some x → imFind s'.send.map id = some x
  sendNew : ∀ id x, imFind s'.send.map id = some x → imFind s.send.map id = some x ∨
    (imFind s.send.map id = none ∧ K.w.ended x.st = false)
  recv : ∀ id st, SMap.find s.recv id = some st → SMap.find s'.recv id = some st
  recvNew : ∀ id st, SMap.find s'.recv id = some st → SMap.find s.recv id = some st ∨
    (SMap.find s.recv id = none ∧ ∃ m, st = .new m)

theorem Grown.refl (K : Kind σ γ) (s : State σ) : Grown K s s :=
  ⟨fun _ _ h => h, fun _ _ h => Or.inl h, fun _ _ h => h, fun _ _ h => Or.inl h⟩

theorem Grown.trans {K : Kind σ γ} {a b c : State σ} (h : Grown K a b) (k : Grown K b c) : Grown K a c := by
  refine ⟨fun id x hx => k.send _ _ (h.send _ _ hx), fun id x hx => ?_, fun id x hx => k.recv _ _ (h.recv _ _ hx),
    fun id x hx => ?_⟩
  · rcases k.sendNew id x hx with h1 | ⟨h1, h2⟩
    · exact h.sendNew id x h1
    · right
      refine ⟨?_, h2⟩
      cases ha : imFind a.send.map id with
      | none => rfl
      | some y => rw [h.send id y ha] at h1; cases h1
  · rcases k.recvNew id x hx with h1 | ⟨h1, h2⟩
    · exact h.recvNew id x h1
    · right
      refine ⟨?_, h2⟩
      cases ha : SMap.find a.recv id with
      | none => rfl
      | some y => rw [h.recv id y ha] at h1; cases h1

theorem grown_recv {recv : SMap RecvS.State} (hs : recv.Sorted) {id m : Nat} (hn : id ∉ recv.map (·.1)) :
    (∀ j st, SMap.find recv j = some st → SMap.find (SMap.insert recv id (.new m)) j = some st) ∧
    (∀ j st, SMap.find (SMap.insert recv id (.new m)) j = some st → SMap.find recv j = some st ∨
      (SMap.find recv j = none ∧ ∃ m, st = .new m)) := by
  have hn := SMap.not_mem_keys.mp hn
  constructor
  · intro j st hj
    rw [hs.find_insert]
    by_cases hji : j = id
    · rw [hji, hn] at hj; cases hj
    · rw [if_neg hji]; exact hj
  · intro j st hj
    rw [hs.find_insert] at hj
    by_cases hji : j = id
    · rw [if_pos hji] at hj
      right
      rw [hji]
      exact ⟨hn, m, (Option.some.inj hj).symm⟩
    · rw [if_neg hji] at hj
      exact Or.inl hj

theorem grown_send {K : Kind σ γ} (hK : KindOk K) {send : Sched σ} {id l : Nat} (hn : id ∉ send.map.map (·.1)) :
    (∀ j x, imFind send.map j = some x → imFind (send.insert id (K.new id l)).map j = some x) ∧
    (∀ j x, imFind (send.insert id (K.new id l)).map j = some x → imFind send.map j = some x ∨
      (imFind send.map j = none ∧ K.w.ended x.st = false)) := by
  have hn := Sched.imFind_eq_none.mpr hn
  have hfind : ∀ j, imFind (send.insert id (K.new id l)).map j = if j = id then some { st := K.new id l } else imFind send.map j :=
    fun j => Sched.imFind_imInsert send.map id j _
  constructor
  · intro j x hj
    rw [hfind]
    by_cases hji : j = id
    · rw [hji, hn] at hj; cases hj
    · rw [if_neg hji]; exact hj
  · intro j x hj
    rw [hfind] at hj
    by_cases hji : j = id
    · rw [if_pos hji] at hj
      right
      rw [hji]
      obtain rfl := Option.some.inj hj
      exact ⟨hn, hK.new _ _⟩
    · rw [if_neg hji] at hj
      exact Or.inl hj

theorem isNew_eq {s : State σ} {n : SType → Nat} (h : Inv s n) {id : Nat} (hr : isRemote s.role id = true) :
    (s.remote (typeOf id)).isNew id = if index id < (s.remote (typeOf id)).fc.maxAllowed then
      .ok (decide (n (typeOf id) ≤ index id)) else .error .streamLimit := by
  unfold Remote.isNew Remote.isAllowed RFc.checkAllowed
  have hid := nth_of_remote hr
  have hd : decide ((s.remote (typeOf id)).next ≤ id) = decide (n (typeOf id) ≤ index id) := by
    rw [h.next]
    congr 1
    have : id = 4 * index id + bits (typeOf id) s.role.other := hid.symm
    unfold nth
    apply propext
    omega
  rw [hd]
  show (if decide (index id < _) = true then _ else _) = _
  simp only [decide_eq_true_eq]

theorem bump_upTo (n : SType → Nat) (t : SType) (m : Nat) (h : n t < m) : upTo (bump n t) t m = upTo n t m := by
  funext t'
  unfold upTo bump
  by_cases htt : t' = t
  · rw [if_pos htt, if_pos htt, if_pos rfl]; omega
  · rw [if_neg htt, if_neg htt, if_neg htt]

theorem upTo_self (n : SType → Nat) (t : SType) (m : Nat) (h : m ≤ n t) : upTo n t m = n := by
  funext t'
  unfold upTo
  split
  · rename_i hh; rw [hh]; omega
  · rfl

/-- The loop opens every stream up to the one asked for. -/
theorem openUpTo_spec {K : Kind σ γ} (hK : KindOk K) {id : Nat} : ∀ (fuel : Nat) {s : State σ} {n : SType → Nat},
    Inv s n → isRemote s.role id = true → s.peer.isSome = true → index id + 1 - n (typeOf id) < fuel →
    if index id < (s.remote (typeOf id)).fc.maxAllowed then
      ∃ s', openUpTo K id fuel s = .ok (s', (List.range' (n (typeOf id)) (index id + 1 - n (typeOf id))).map
          (fun i => .opened (nth (typeOf id) s.role.other i))) ∧
        Inv s' (upTo n (typeOf id) (index id + 1)) ∧ Opens s s' ∧ Grown K s s'
    else openUpTo K id fuel s = .error .streamLimit := by
  intro fuel
  induction fuel with
  | zero => intro s n _ _ _ hf; omega
  | succ fuel ih =>
    intro s n h hr hp hf
    have hnew := isNew_eq h hr
    unfold openUpTo
    rw [hnew]
    by_cases hal : index id < (s.remote (typeOf id)).fc.maxAllowed
    · rw [if_pos hal, if_pos hal]
      by_cases hge : n (typeOf id) ≤ index id
      · rw [decide_eq_true hge]
        dsimp only
        have htake : (s.remote (typeOf id)).take =
            .ok ({ s.remote (typeOf id) with next := (s.remote (typeOf id)).next + 4 },
              nth (typeOf id) s.role.other (n (typeOf id))) := by
          unfold Remote.take Remote.isAllowed RFc.checkAllowed
          rw [h.next]
          have : nth (typeOf id) s.role.other (n (typeOf id)) / 4 = n (typeOf id) := index_nth _ _ _
          rw [this, if_pos (decide_eq_true (by omega))]
        rw [htake]
        dsimp only
        obtain ⟨s1, h1, h2, h3, ⟨m, h4⟩, h5⟩ := openOne_spec K h (typeOf id) hp (by omega)
        rw [h1]
        dsimp only
        have hg : Grown K s s1 := by
          have hfr := h.fresh_remote (typeOf id)
          have hnr : nth (typeOf id) s.role.other (n (typeOf id)) ∉ s.recv.map (·.1) := fun hh => hfr (h.rknown _ hh).2
          have hns : nth (typeOf id) s.role.other (n (typeOf id)) ∉ s.send.map.map (·.1) := fun hh => hfr (h.sknown _ hh).2
          obtain ⟨g1, g2⟩ := grown_recv (m := m) h.srt hnr
          rw [← h4] at g1 g2
          rcases h5 with ⟨_, h5⟩ | ⟨_, l, h5⟩
          · exact ⟨fun j x hj => by rw [h5]; exact hj, fun j x hj => by rw [h5] at hj; exact Or.inl hj, g1, g2⟩
          · obtain ⟨g3, g4⟩ := grown_send hK (l := l) hns
            rw [← h5] at g3 g4
            exact ⟨g3, g4, g1, g2⟩
        have hb : bump n (typeOf id) (typeOf id) = n (typeOf id) + 1 := by unfold bump; rw [if_pos rfl]
        have := ih h2 (by rw [h3.role]; exact hr) (by rw [h3.peer]; exact hp) (by rw [hb]; omega)
        rw [if_pos (by rw [h3.fc]; exact hal)] at this
        obtain ⟨s2, k1, k2, k3, k4⟩ := this
        rw [k1]
        refine ⟨s2, ?_, ?_, h3.trans k3, hg.trans k4⟩
        · dsimp only
          rw [hb, h3.role]
          have : index id + 1 - n (typeOf id) = (index id + 1 - (n (typeOf id) + 1)) + 1 := by omega
          rw [this, List.range'_succ, List.map_cons]
        · rw [bump_upTo _ _ _ (by omega)] at k2
          exact k2
      · rw [decide_eq_false hge]
        refine ⟨s, ?_, ?_, Opens.refl s, Grown.refl K s⟩
        · have : index id + 1 - n (typeOf id) = 0 := by omega
          rw [this]
          rfl
        · rw [upTo_self _ _ _ (by omega)]
          exact h
    · rw [if_neg hal, if_neg hal]

/-- `ensure_created_if_remote` for a stream of the peer. -/
theorem ensure_remote {K : Kind σ γ} (hK : KindOk K) {s : State σ} {n : SType → Nat} (h : Inv s n) {id : Nat}
    (hr : isRemote s.role id = true) (hp : s.peer.isSome = true) :
    if index id < (s.remote (typeOf id)).fc.maxAllowed then
      ∃ s', ensureCreated K s id = .ok (s', (List.range' (n (typeOf id)) (index id + 1 - n (typeOf id))).map
          (fun i => .opened (nth (typeOf id) s.role.other i))) ∧
        Inv s' (upTo n (typeOf id) (index id + 1)) ∧ Opens s s' ∧ Grown K s s'
    else ensureCreated K s id = .error .streamLimit := by
  have : ensureCreated K s id = openUpTo K id ((id - (s.remote (typeOf id)).next) / 4 + 2) s := by
    unfold ensureCreated
    rw [hr]
    rfl
  rw [this]
  refine openUpTo_spec hK _ h hr hp ?_
  have hid : 4 * index id + bits (typeOf id) s.role.other = id := nth_of_remote hr
  rw [h.next]
  unfold nth
  omega

/-- `obtain_stream` for a stream of the peer. -/
theorem obtain_remote {K : Kind σ γ} (hK : KindOk K) {s : State σ} {n : SType → Nat} (h : Inv s n) {id : Nat}
    (hr : isRemote s.role id = true) (hp : s.peer.isSome = true) :
    if index id < (s.remote (typeOf id)).fc.maxAllowed then
      ∃ s', obtainStream K s id = .ok (s', (List.range' (n (typeOf id)) (index id + 1 - n (typeOf id))).map
          (fun i => .opened (nth (typeOf id) s.role.other i))) ∧
        Inv s' (upTo n (typeOf id) (index id + 1)) ∧ Opens s s' ∧ Grown K s s'
    else obtainStream K s id = .error .streamLimit := by
  have := ensure_remote hK h hr hp
  unfold obtainStream
  split
  · rename_i hal
    rw [if_pos hal] at this
    obtain ⟨s', h1, h2, h3, h4⟩ := this
    rw [h1]
    dsimp only
    refine ⟨s', ?_, h2, h3, h4⟩
    rw [if_neg]
    rw [h3.role, hr]
    simp
  · rename_i hal
    rw [if_neg hal] at this
    rw [this]

/-- `obtain_stream` for an own stream. -/
theorem obtain_local {K : Kind σ γ} {s : State σ} {n : SType → Nat} (h : Inv s n) {id : Nat}
    (hr : isLocal s.role id = true) :
    obtainStream K s id = if index id < (s.loc (typeOf id)).used then .ok (s, []) else .error .streamState := by
  have he : ensureCreated K s id = .ok (s, []) := by
    unfold ensureCreated isRemote
    rw [hr]
    rfl
  unfold obtainStream
  rw [he]
  dsimp only
  by_cases hlt : index id < (s.loc (typeOf id)).used
  · rw [if_pos hlt, if_neg]
    rw [decide_eq_false (by omega)]
    simp
  · rw [if_neg hlt, if_pos]
    have hk : ¬ Known s n id := by
      unfold Known
      rw [if_pos hr]
      exact hlt
    have h1 : imFind s.send.map id = none := Sched.imFind_eq_none.mpr (fun hh => hk (h.sknown id hh).2)
    have h2 : SMap.find s.recv id = none := SMap.not_mem_keys.mp (fun hh => hk (h.rknown id hh).2)
    rw [h1, h2, decide_eq_true (by omega)]
    unfold isRemote
    rw [hr]
    rfl

end Neqo.Strs
