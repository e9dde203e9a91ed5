import Verif.Streams.Ids
import Verif.RecvStream.ConnInv

/-! The table of receive streams behaves as the streams of `Verif.RecvStream.Spec`. -/

namespace Neqo.SMap

variable {β : Type}

theorem Sorted.find_insert {m : SMap β} (h : Sorted m) (k j : Nat) (v : β) :
    SMap.find (SMap.insert m k v) j = if j = k then some v else find m j := by
  have hs := h.insert k v
  by_cases hj : j = k
  · rw [if_pos hj, hj, hs.find_eq_some, mem_insert]
    exact Or.inl rfl
  · rw [if_neg hj]
    cases hf : find m j with
    | none =>
      rw [find_eq_none] at hf ⊢
      intro e he
      rcases mem_insert.mp he with he | he
      · rw [he]; exact fun hh => hj hh.symm
      · exact hf e he.1
    | some x =>
      rw [h.find_eq_some] at hf
      rw [hs.find_eq_some, mem_insert]
      exact Or.inr ⟨hf, hj⟩

theorem Sorted.find_modify {m : SMap β} (h : Sorted m) (k j : Nat) (f : β → β) :
    SMap.find (SMap.modify m k f) j = if j = k then (find m j).map f else find m j := by
  have hs := h.modify k f
  cases hf : find m j with
  | none =>
    have : SMap.find (SMap.modify m k f) j = none := by
      rw [find_eq_none] at hf ⊢
      intro e he
      unfold SMap.modify at he
      obtain ⟨e0, he0, rfl⟩ := List.mem_map.mp he
      have := hf e0 he0
      split
      · exact this
      · exact this
    rw [this]
    split <;> rfl
  | some x =>
    rw [h.find_eq_some] at hf
    by_cases hj : j = k
    · rw [if_pos hj, Option.map_some, hs.find_eq_some]
      unfold SMap.modify
      exact List.mem_map.mpr ⟨_, hf, by rw [if_pos hj]⟩
    · rw [if_neg hj, hs.find_eq_some]
      unfold SMap.modify
      exact List.mem_map.mpr ⟨_, hf, by rw [if_neg hj]⟩

theorem Sorted.find_filter {m : SMap β} (h : Sorted m) (p : Nat × β → Bool) {j : Nat} {v : β} :
    find (List.filter p m) j = some v ↔ find m j = some v ∧ p (j, v) = true := by
  rw [(h.filter p).find_eq_some, h.find_eq_some, List.mem_filter]

theorem modify_keys (m : SMap β) (k : Nat) (f : β → β) : (modify m k f).map (·.1) = m.map (·.1) := by
  unfold modify
  rw [List.map_map]
  apply List.map_congr_left
  intro e _
  show (if e.1 = k then (e.1, f e.2) else e).1 = e.1
  split <;> rfl

theorem Sorted.mem_keys {m : SMap β} (h : Sorted m) {k : Nat} : k ∈ m.map (·.1) ↔ ∃ v, find m k = some v := by
  constructor
  · intro hk
    obtain ⟨e, he, rfl⟩ := List.mem_map.mp hk
    exact ⟨e.2, h.find_eq_some.mpr he⟩
  · rintro ⟨v, hv⟩
    exact List.mem_map.mpr ⟨_, h.find_eq_some.mp hv, rfl⟩

theorem not_mem_keys {m : SMap β} {k : Nat} : k ∉ m.map (·.1) ↔ find m k = none := by
  rw [find_eq_none]
  constructor
  · intro h e he hk
    exact h (List.mem_map.mpr ⟨e, he, hk⟩)
  · intro h hk
    obtain ⟨e, he, hk⟩ := List.mem_map.mp hk
    exact h e he hk

theorem Sorted.nodup_keys {m : SMap β} (h : Sorted m) : (m.map (·.1)).Nodup := by
  unfold List.Nodup
  rw [List.pairwise_map]
  exact h.imp (fun hh => Nat.ne_of_lt hh)

end Neqo.SMap

namespace Neqo.Strs

open Neqo.Flow (SFc RFc)

/-- The receive streams are some of the streams of a connection of `Verif.RecvStream.Spec`. -/
def Sim (ses : RFc) (recv : SMap RecvS.State) : Prop :=
  ∃ (c : RecvS.Conn) (f : Nat → Nat), RecvS.SOk c ∧ c.ses = ses ∧
    (∀ a ∈ recv.map (·.1), ∀ b ∈ recv.map (·.1), f a = f b → a = b) ∧
    ∀ id st, SMap.find recv id = some st → ∃ t, c.streams[f id]? = some t ∧ t.st = st

theorem sim_new {m : Nat} (h : m ≤ 2 ^ 62 - 1) : Sim (RFc.new m) [] :=
  ⟨.new m, id, RecvS.sok_new h, rfl, (fun a ha => by cases ha), (fun _ _ h => by cases h)⟩

theorem Sim.clear {ses : RFc} {recv : SMap RecvS.State} (h : Sim ses recv) : Sim ses [] := by
  obtain ⟨c, f, h1, h2, _, _⟩ := h
  exact ⟨c, f, h1, h2, (fun a ha => by cases ha), (fun _ _ h => by cases h)⟩

theorem Sim.filter {ses : RFc} {recv : SMap RecvS.State} (hs : recv.Sorted) (h : Sim ses recv)
    (p : Nat × RecvS.State → Bool) : Sim ses (recv.filter p) := by
  obtain ⟨c, f, h1, h2, h3, h4⟩ := h
  have hsub : ∀ a, a ∈ (recv.filter p).map (·.1) → a ∈ recv.map (·.1) := by
    intro a ha
    obtain ⟨e, he, rfl⟩ := List.mem_map.mp ha
    exact List.mem_map.mpr ⟨e, (List.mem_filter.mp he).1, rfl⟩
  exact ⟨c, f, h1, h2, fun a ha b hb => h3 a (hsub a ha) b (hsub b hb), fun id st hf =>
    h4 id st ((hs.find_filter p).mp hf).1⟩

theorem Sim.insert {ses : RFc} {recv : SMap RecvS.State} (hs : recv.Sorted) (h : Sim ses recv) {id m : Nat}
    (hn : id ∉ recv.map (·.1)) (hm : m ≤ 2 ^ 62 - 1) : Sim ses (SMap.insert recv id (.new m)) := by
  obtain ⟨c, f, h1, h2, h3, h4⟩ := h
  have hlt : ∀ a ∈ recv.map (·.1), f a < c.streams.length := by
    intro a ha
    obtain ⟨v, hv⟩ := hs.mem_keys.mp ha
    obtain ⟨t, ht, _⟩ := h4 a v hv
    exact (List.getElem?_eq_some_iff.mp ht).1
  have hmem : ∀ a, a ∈ (SMap.insert recv id (RecvS.State.new m)).map (·.1) → a = id ∨ a ∈ recv.map (·.1) := by
    intro a ha
    obtain ⟨e, he, rfl⟩ := List.mem_map.mp ha
    rcases SMap.mem_insert.mp he with he | he
    · left; rw [he]
    · exact Or.inr (List.mem_map.mpr ⟨e, he.1, rfl⟩)
  refine ⟨{ c with streams := c.streams ++ [RecvS.Tr.new m] }, fun x => if x = id then c.streams.length else f x,
    RecvS.sok_step (op := .newStream m) h1 hm rfl, h2, ?_, ?_⟩
  · intro a ha b hb hab
    dsimp only at hab
    rcases hmem a ha with rfl | ha'
    · rw [if_pos rfl] at hab
      rcases hmem b hb with rfl | hb'
      · rfl
      · split at hab
        · rename_i hh; exact hh.symm
        · have := hlt b hb'; omega
    · have hne : a ≠ id := fun hh => hn (hh ▸ ha')
      rw [if_neg hne] at hab
      rcases hmem b hb with rfl | hb'
      · rw [if_pos rfl] at hab
        have := hlt a ha'; omega
      · have hne : b ≠ id := fun hh => hn (hh ▸ hb')
        rw [if_neg hne] at hab
        exact h3 a ha' b hb' hab
  · intro j st hf
    rw [hs.find_insert] at hf
    dsimp only
    by_cases hj : j = id
    · rw [if_pos hj] at hf ⊢
      obtain rfl := Option.some.inj hf
      refine ⟨RecvS.Tr.new m, ?_, rfl⟩
      rw [List.getElem?_append_right (Nat.le_refl _)]
      simp
    · rw [if_neg hj] at hf ⊢
      obtain ⟨t, ht, hst⟩ := h4 j st hf
      refine ⟨t, ?_, hst⟩
      rw [List.getElem?_append_left (List.getElem?_eq_some_iff.mp ht).1]
      exact ht

/-- The two descriptions of operations on a receive stream agree. -/
theorem recvStep_ok {t : RecvS.Tr} {ses ses' : RFc} {op : RecvS.Op} {st' : RecvS.State} {b : Bool}
    (h : recvStep t.st ses op = .ok (st', ses', b)) : ∃ t' o, t.step ses op = .ok (t', ses', o) ∧ t'.st = st' := by
  unfold recvStep at h
  unfold RecvS.Tr.step
  cases op with
  | frame fin off d =>
    dsimp only at h ⊢
    cases hh : t.st.inboundFrame ses fin off d with
    | error e => rw [hh] at h; cases h
    | ok r => rw [hh] at h; cases h; exact ⟨_, _, rfl, rfl⟩
  | reset err fs rel =>
    dsimp only at h ⊢
    cases hh : t.st.reset ses err fs rel with
    | error e => rw [hh] at h; cases h
    | ok r => rw [hh] at h; cases h; exact ⟨_, _, rfl, rfl⟩
  | read n =>
    dsimp only at h ⊢
    cases hh : t.st.read ses n with
    | error e =>
      rw [hh] at h
      cases e <;> cases h
      exact ⟨_, _, rfl, rfl⟩
    | ok r => rw [hh] at h; cases h; exact ⟨_, _, rfl, rfl⟩
  | stopSending err =>
    dsimp only at h ⊢
    cases hh : t.st.stopSending ses err with
    | error e => rw [hh] at h; cases h
    | ok r => rw [hh] at h; cases h; exact ⟨_, _, rfl, rfl⟩
  | write fits now rtt =>
    dsimp only at h ⊢
    cases hh : t.st.writeFrame fits now rtt with
    | error e => rw [hh] at h; cases h
    | ok r => rw [hh] at h; cases h; exact ⟨_, _, rfl, rfl⟩
  | stopSendingAcked => cases h; exact ⟨_, _, rfl, rfl⟩
  | stopSendingLost => cases h; exact ⟨_, _, rfl, rfl⟩
  | maxStreamDataLost l => cases h; exact ⟨_, _, rfl, rfl⟩
  | peerBlocked => cases h; exact ⟨_, _, rfl, rfl⟩
  | setWindow w => cases h; exact ⟨_, _, rfl, rfl⟩

theorem recvStep_error {t : RecvS.Tr} {ses : RFc} {op : RecvS.Op} {e : Err}
    (h : recvStep t.st ses op = .error e) : t.step ses op = .error e := by
  unfold recvStep at h
  unfold RecvS.Tr.step
  cases op with
  | frame fin off d =>
    dsimp only at h ⊢
    cases hh : t.st.inboundFrame ses fin off d with
    | error e => rw [hh] at h; cases h; rfl
    | ok r => rw [hh] at h; cases h
  | reset err fs rel =>
    dsimp only at h ⊢
    cases hh : t.st.reset ses err fs rel with
    | error e => rw [hh] at h; cases h; rfl
    | ok r => rw [hh] at h; cases h
  | read n =>
    dsimp only at h ⊢
    cases hh : t.st.read ses n with
    | error e =>
      rw [hh] at h
      cases e <;> cases h <;> rfl
    | ok r => rw [hh] at h; cases h
  | stopSending err =>
    dsimp only at h ⊢
    cases hh : t.st.stopSending ses err with
    | error e => rw [hh] at h; cases h; rfl
    | ok r => rw [hh] at h; cases h
  | write fits now rtt =>
    dsimp only at h ⊢
    cases hh : t.st.writeFrame fits now rtt with
    | error e => rw [hh] at h; cases h; rfl
    | ok r => rw [hh] at h; cases h
  | stopSendingAcked => cases h
  | stopSendingLost => cases h
  | maxStreamDataLost l => cases h
  | peerBlocked => cases h
  | setWindow w => cases h

/-- The application does not shrink a window. -/
def Keeps (st : RecvS.State) (op : RecvS.Op) : Prop :=
  ∀ w fc buf, op = .setWindow w → st = .recv fc buf → fc.maxActive ≤ w

theorem Sim.step {ses ses' : RFc} {recv : SMap RecvS.State} (hs : recv.Sorted) (h : Sim ses recv) {id : Nat}
    {st st' : RecvS.State} {op : RecvS.Op} {b : Bool} (hf : SMap.find recv id = some st) (hk : Keeps st op)
    (hr : recvStep st ses op = .ok (st', ses', b)) : Sim ses' (SMap.modify recv id (fun _ => st')) := by
  obtain ⟨c, f, h1, h2, h3, h4⟩ := h
  obtain ⟨t, ht, rfl⟩ := h4 id st hf
  rw [← h2] at hr
  obtain ⟨t', o, hstep, rfl⟩ := recvStep_ok hr
  have hc : c.step (.onStream (f id) op) = .ok ({ c with ses := ses', streams := c.streams.set (f id) t' }, o) := by
    unfold RecvS.Conn.step
    dsimp only
    rw [ht]
    dsimp only
    rw [hstep]
    rfl
  have hsane : RecvS.Sane c (.onStream (f id) op) := by
    unfold RecvS.Sane
    cases op with
    | setWindow w =>
      intro t1 fc buf ht1 hst
      rw [ht] at ht1
      obtain rfl := Option.some.inj ht1
      exact hk w fc buf rfl hst
    | _ => trivial
  refine ⟨_, f, RecvS.sok_step h1 hsane hc, rfl, ?_, ?_⟩
  · rw [SMap.modify_keys]; exact h3
  · intro j stj hj
    rw [hs.find_modify] at hj
    by_cases hji : j = id
    · rw [if_pos hji, hji, hf] at hj
      obtain rfl := Option.some.inj hj
      refine ⟨t', ?_, rfl⟩
      rw [hji]
      exact List.getElem?_set_self (List.getElem?_eq_some_iff.mp ht).1
    · rw [if_neg hji] at hj
      obtain ⟨tj, htj, hst⟩ := h4 j stj hj
      refine ⟨tj, ?_, hst⟩
      have hne : f id ≠ f j := by
        intro hh
        exact hji (h3 j (hs.mem_keys.mpr ⟨_, hj⟩) id (hs.mem_keys.mpr ⟨_, hf⟩) hh.symm)
      show (c.streams.set (f id) t')[f j]? = some tj
      rw [List.getElem?_set_ne hne]
      exact htj

theorem Sim.no_panic {ses : RFc} {recv : SMap RecvS.State} (h : Sim ses recv) {id : Nat}
    {st : RecvS.State} {op : RecvS.Op} (hf : SMap.find recv id = some st) :
    recvStep st ses op ≠ .error .panic := by
  obtain ⟨c, f, h1, h2, h3, h4⟩ := h
  obtain ⟨t, ht, rfl⟩ := h4 id st hf
  have hfit := h1.fit (List.mem_of_getElem? ht)
  rw [h2] at hfit
  intro hp
  have hp := recvStep_error hp
  by_cases hop : (∀ fin off d, op ≠ .frame fin off d) ∧ (∀ err fs rel, op ≠ .reset err fs rel)
  · obtain ⟨r, hr⟩ := RecvS.local_succeeds hfit hop
    cases hp.symm.trans hr
  · cases op with
    | frame fin off d =>
      rcases RecvS.frame_error hfit hp with ⟨_, h⟩ | ⟨_, h, _⟩ | h <;> cases h
    | reset err fs rel =>
      rcases RecvS.reset_error hfit hp with ⟨_, h⟩ | ⟨_, h⟩ | ⟨_, h, _⟩ | ⟨_, h⟩ <;> cases h
    | _ => exact hop ⟨nofun, nofun⟩

/-- Anything but a frame or a reset succeeds. -/
theorem Sim.succeeds {ses : RFc} {recv : SMap RecvS.State} (h : Sim ses recv) {id : Nat}
    {st : RecvS.State} {op : RecvS.Op} (hf : SMap.find recv id = some st)
    (ho : (∀ fin off d, op ≠ .frame fin off d) ∧ (∀ err fs rel, op ≠ .reset err fs rel)) :
    ∃ r, recvStep st ses op = .ok r := by
  obtain ⟨c, f, h1, h2, h3, h4⟩ := h
  obtain ⟨t, ht, rfl⟩ := h4 id st hf
  have hfit := h1.fit (List.mem_of_getElem? ht)
  rw [h2] at hfit
  cases hr : recvStep t.st ses op with
  | ok r => exact ⟨r, rfl⟩
  | error e =>
    obtain ⟨r, hr'⟩ := RecvS.local_succeeds hfit ho
    cases (recvStep_error hr).symm.trans hr'

theorem Sim.write {ses ses' : RFc} {recv : SMap RecvS.State} (h : Sim ses recv) {fits : Bool} {now rtt : Nat}
    {o : Option Nat} (hw : ses.write fits now rtt Flow.maxLocalMaxData = .ok (ses', o)) : Sim ses' recv := by
  obtain ⟨c, f, h1, rfl, h3, h4⟩ := h
  have hc : ∃ c' o', c.step (.write fits now rtt) = .ok (c', o') ∧ c'.ses = ses' ∧ c'.streams = c.streams := by
    unfold RecvS.Conn.step
    dsimp only
    rw [hw]
    exact ⟨_, _, rfl, rfl, rfl⟩
  obtain ⟨c', o', hc, k1, k2⟩ := hc
  exact ⟨c', f, RecvS.sok_step (op := .write fits now rtt) h1 trivial hc, k1, h3, by rw [k2]; exact h4⟩

theorem Sim.write_succeeds {ses : RFc} {recv : SMap RecvS.State} (h : Sim ses recv) (fits : Bool) (now rtt : Nat) :
    ∃ r, ses.write fits now rtt Flow.maxLocalMaxData = .ok r := by
  obtain ⟨c, f, h1, rfl, h3, h4⟩ := h
  exact Flow.write_succeeds h1.ses ..

theorem Sim.lost {ses : RFc} {recv : SMap RecvS.State} (h : Sim ses recv) (m : Nat) : Sim (ses.frameLost m) recv := by
  obtain ⟨c, f, h1, rfl, h3, h4⟩ := h
  exact ⟨_, f, RecvS.sok_step (op := .maxDataLost m) h1 trivial rfl, rfl, h3, h4⟩

theorem Sim.blocked {ses : RFc} {recv : SMap RecvS.State} (h : Sim ses recv) : Sim ses.sendFlowcUpdate recv := by
  obtain ⟨c, f, h1, rfl, h3, h4⟩ := h
  exact ⟨_, f, RecvS.sok_step (op := .peerBlocked) h1 trivial rfl, rfl, h3, h4⟩

end Neqo.Strs
