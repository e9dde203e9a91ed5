import Verif.RecvStream.RxProps
import Verif.Crypto.Model

/-! # How much a receive buffer holds: lemmas -/
namespace Neqo.Recv
open Neqo.Codec (Bytes)

/-- The number of bytes of the range at or after offset `r`. -/
def unread (r : Nat) (e : Nat × Bytes) : Nat := e.2.length - (r - e.1)

/-- The number of bytes stored at or after offset `r`. -/
def heldAt (r : Nat) (m : SMap Bytes) : Nat := (m.map (unread r)).sum

/-- The number of bytes stored that have not been read. -/
def Rx.held (s : Rx) : Nat := heldAt s.retired s.ranges

theorem heldAt_append (r : Nat) (a b : SMap Bytes) : heldAt r (a ++ b) = heldAt r a + heldAt r b := by
  unfold heldAt; rw [List.map_append, List.sum_append]

theorem heldAt_cons (r : Nat) (e : Nat × Bytes) (m : SMap Bytes) : heldAt r (e :: m) = unread r e + heldAt r m := by
  unfold heldAt; rw [List.map_cons, List.sum_cons]

theorem heldAt_nil (r : Nat) : heldAt r [] = 0 := rfl

theorem heldAt_suffix (r : Nat) {a b : SMap Bytes} (h : a <:+ b) : heldAt r a ≤ heldAt r b := by
  obtain ⟨c, rfl⟩ := h
  rw [heldAt_append]; omega

theorem heldAt_congr {r r' : Nat} {m : SMap Bytes} (h : ∀ e ∈ m, r ≤ e.1 ∧ r' ≤ e.1) : heldAt r m = heldAt r' m := by
  induction m with
  | nil => rfl
  | cons e m ih =>
    rw [heldAt_cons, heldAt_cons, ih fun e he => h e (by simp [he])]
    have := h e (by simp)
    unfold unread
    omega

theorem heldAt_split (r k : Nat) (m : SMap Bytes) : heldAt r (m.below k) + heldAt r (m.atOrAfter k) = heldAt r m := by
  unfold SMap.below SMap.atOrAfter
  induction m with
  | nil => rfl
  | cons e m ih =>
    simp only [List.filter_cons]
    by_cases hc : e.1 < k
    · have h2 : ¬ k ≤ e.1 := by omega
      simp only [hc, h2, decide_true, decide_false, if_true, heldAt_cons]
      simp only [Bool.false_eq_true, if_false]
      omega
    · have h2 : k ≤ e.1 := by omega
      simp only [hc, h2, decide_true, decide_false, if_true, heldAt_cons]
      simp only [Bool.false_eq_true, if_false]
      omega

theorem heldAt_insert (r : Nat) (m : SMap Bytes) (k : Nat) (v : Bytes) :
    heldAt r (m.insert k v) ≤ heldAt r m + v.length := by
  have h1 : heldAt r (m.below k) + heldAt r (m.above k) ≤ heldAt r m := by
    unfold SMap.below SMap.above
    induction m with
    | nil => exact Nat.le_refl _
    | cons e m ih =>
      simp only [List.filter_cons]
      by_cases hc : e.1 < k
      · have h2 : ¬ k < e.1 := by omega
        simp only [hc, h2, decide_true, decide_false, if_true, heldAt_cons, Bool.false_eq_true, if_false]
        omega
      · by_cases h2 : k < e.1
        · simp only [hc, h2, decide_true, decide_false, if_true, heldAt_cons, Bool.false_eq_true, if_false]
          omega
        · simp only [hc, h2, decide_false, heldAt_cons, Bool.false_eq_true, if_false]
          omega
  unfold SMap.insert
  rw [heldAt_append, heldAt_cons]
  have : unread r (k, v) ≤ v.length := by unfold unread; simp only; omega
  omega

theorem modify_other {m : SMap Bytes} {k : Nat} {f : Bytes → Bytes} (h : ∀ e ∈ m, e.1 ≠ k) : m.modify k f = m := by
  unfold SMap.modify
  conv_rhs => rw [← List.map_id m]
  exact List.map_congr_left fun e he => by rw [if_neg (h e he)]; rfl

theorem heldAt_modify {r k n : Nat} {m : SMap Bytes} {f : Bytes → Bytes} (hs : m.Sorted)
    (hf : ∀ b, (f b).length ≤ b.length + n) : heldAt r (m.modify k f) ≤ heldAt r m + n := by
  induction m with
  | nil => exact Nat.zero_le _
  | cons e m ih =>
    have hs' := SMap.sorted_cons.mp hs
    by_cases hc : e.1 = k
    · have : SMap.modify (e :: m) k f = (k, f e.2) :: m := by
        show _ :: SMap.modify m k f = _
        rw [modify_other (fun x hx => by have := hs'.1 x hx; omega)]
        simp only [hc, if_true]
      rw [this, heldAt_cons, heldAt_cons]
      have := hf e.2
      unfold unread
      rw [hc]
      simp only
      omega
    · have : SMap.modify (e :: m) k f = e :: SMap.modify m k f := by
        show _ :: SMap.modify m k f = _
        simp only [hc, if_false]
      rw [this, heldAt_cons, heldAt_cons]
      have := ih hs'.2
      omega

theorem heldAt_erase {r k : Nat} {m : SMap Bytes} {v : Bytes} (hf : m.find k = some v) (hr : r ≤ k) :
    heldAt r (m.erase k) + v.length ≤ heldAt r m := by
  induction m with
  | nil => cases hf
  | cons e m ih =>
    unfold SMap.find at hf ih
    unfold SMap.erase at ih ⊢
    rw [List.find?_cons] at hf
    rw [List.filter_cons, heldAt_cons]
    by_cases hc : e.1 = k
    · simp only [hc, beq_self_eq_true, Option.map_some, Option.some.injEq] at hf
      have hle : heldAt r (m.filter fun e => decide (e.1 ≠ k)) ≤ heldAt r m := by
        clear ih hf
        induction m with
        | nil => exact Nat.le_refl _
        | cons e m ih =>
          rw [List.filter_cons]
          split
          · rw [heldAt_cons, heldAt_cons]; omega
          · rw [heldAt_cons]; omega
      have hd : decide (e.1 ≠ k) = false := by simp [hc]
      rw [hd, if_neg (by simp)]
      unfold unread
      rw [hf, hc]
      omega
    · have hb : (e.1 == k) = false := by simp [hc]
      rw [hb] at hf
      have hd : decide (e.1 ≠ k) = true := by simp [hc]
      rw [hd, if_pos rfl, heldAt_cons]
      have := ih hf
      omega

theorem scanNext_suffix (ne : Nat) (m : SMap Bytes) : ∀ len, (scanNext ne len m).1 <:+ m := by
  induction m with
  | nil => intro len; exact List.suffix_refl _
  | cons e m ih =>
    intro len
    obtain ⟨a, d⟩ := e
    simp only [scanNext]
    split
    · exact List.suffix_refl _
    · split
      · exact List.suffix_refl _
      · exact (ih len).trans (List.suffix_cons _ _)

/-- What a frame adds to the buffer it also adds to the count, or more. -/
structure Grows (s s' : Rx) (n : Nat) : Prop where
  retired : s'.retired = s.retired
  held : s'.held + s.received ≤ s.held + s'.received
  mono : s.received ≤ s'.received
  count : s'.received ≤ s.received + n

theorem Grows.refl (s : Rx) (n : Nat) : Grows s s n := ⟨rfl, Nat.le_refl _, Nat.le_refl _, by omega⟩

theorem addRange_grows {R} {s s' : Rx} (h : Inv R s) {ns ne : Nat} {data : Bytes} {ext : Option (Nat × Nat)}
    (hns : s.retired ≤ ns) (hr : s.addRange ns ne data ext = .ok s') : Grows s s' data.length := by
  unfold Rx.addRange at hr
  have hsuf := scanNext_suffix ne (s.ranges.atOrAfter ns) data.length
  have hle := scanNext_le ne data.length (s.ranges.atOrAfter ns)
  have hm := h.sorted.split_below ns
  have hsort := h.sorted
  generalize scanNext ne data.length (s.ranges.atOrAfter ns) = p at hr hsuf hle
  obtain ⟨rest, n⟩ := p
  simp only at hr hsuf hle
  have hbase : heldAt s.retired (s.ranges.below ns ++ rest) ≤ s.held := by
    have h1 := heldAt_suffix s.retired hsuf
    have h2 := heldAt_split s.retired ns s.ranges
    unfold Rx.held
    rw [heldAt_append]; omega
  have hsorted : SMap.Sorted (s.ranges.below ns ++ rest) := by
    rw [hm] at hsort
    exact List.Pairwise.sublist ((List.Sublist.refl _).append hsuf.sublist) hsort
  have hlen : (data.take n).length ≤ data.length := by rw [List.length_take]; omega
  split at hr
  · cases hr
    exact ⟨rfl, by simp only [Rx.held]; unfold Rx.held at hbase; omega, Nat.le_refl _, by simp only; omega⟩
  · split at hr
    · rename_i ps pl
      cases hr
      refine ⟨rfl, ?_, by simp only; omega, by simp only; omega⟩
      simp only [Rx.held]
      unfold Rx.held at hbase
      cases hn : absorbNext (s.ranges.below ns ++ rest) (ns + (data.take n).length) (pl + (data.take n).length) with
      | none =>
        simp only [Option.isSome_none, Option.getD_none, Bool.false_eq_true, if_false, List.append_nil]
        have := heldAt_modify (r := s.retired) (k := ps) (n := (data.take n).length) (f := fun b => b ++ data.take n)
          hsorted (fun b => by simp)
        omega
      | some v =>
        simp only [Option.isSome_some, Option.getD_some, if_true]
        have hfind : SMap.find (s.ranges.below ns ++ rest) (ns + (data.take n).length) = some v := by
          unfold absorbNext at hn
          split at hn
          · rename_i v' hv
            split at hn
            · cases hn; exact hv
            · cases hn
          · cases hn
        have h1 := heldAt_erase (r := s.retired) hfind (by omega)
        have hs2 : SMap.Sorted (SMap.erase (s.ranges.below ns ++ rest) (ns + (data.take n).length)) :=
          hsorted.filter _
        have h2 := heldAt_modify (r := s.retired) (k := ps) (n := (data.take n).length + v.length)
          (f := fun b => b ++ data.take n ++ v) hs2 (fun b => by
            simp only [List.length_append]; omega)
        omega
    · have := insertRange_ok hr
      subst this
      refine ⟨rfl, ?_, by simp only; omega, by simp only; omega⟩
      simp only [Rx.held]
      unfold Rx.held at hbase
      have := heldAt_insert s.retired (s.ranges.below ns ++ rest) ns (data.take n)
      omega

theorem inboundFrame_grows {R} {s s' : Rx} (h : Inv R s) {start : Nat} {data : Bytes}
    (hr : s.inboundFrame start data = .ok s') : Grows s s' data.length := by
  unfold Rx.inboundFrame at hr
  simp only at hr
  generalize hnd : (if start < s.retired then data.drop (s.retired - start) else data) = nd at hr
  generalize hns : (if start < s.retired then s.retired else start) = ns at hr
  have hndl : nd.length ≤ data.length := by
    rw [← hnd]; split
    · rw [List.length_drop]; omega
    · exact Nat.le_refl _
  have hret : s.retired ≤ ns := by rw [← hns]; split <;> omega
  have weaken : ∀ {n}, n ≤ data.length → Grows s s' n → Grows s s' data.length :=
    fun hn g => ⟨g.retired, g.held, g.mono, by have := g.count; omega⟩
  split at hr
  · cases hr; exact Grows.refl s _
  · split at hr
    · cases hr; exact Grows.refl s _
    · split at hr
      · split at hr
        · rename_i k v hlast
          split at hr
          · cases hr
            refine ⟨rfl, ?_, by simp only; omega, by simp only; omega⟩
            simp only [Rx.held]
            have hsp := getLast?_split hlast
            have h1 : heldAt s.retired s.ranges = heldAt s.retired (s.ranges.dropLast) + unread s.retired (k, v) := by
              conv_lhs => rw [hsp]
              rw [heldAt_append, heldAt_cons, heldAt_nil]; omega
            rw [heldAt_append, heldAt_cons, heldAt_nil, h1]
            have : unread s.retired (k, v ++ nd) ≤ unread s.retired (k, v) + nd.length := by
              unfold unread
              simp only [List.length_append]; omega
            omega
          · have := insertRange_ok hr
            subst this
            refine ⟨rfl, ?_, by simp only; omega, by simp only; omega⟩
            simp only [Rx.held]
            have := heldAt_insert s.retired s.ranges ns nd
            omega
        · have := insertRange_ok hr
          subst this
          refine ⟨rfl, ?_, by simp only; omega, by simp only; omega⟩
          simp only [Rx.held]
          have := heldAt_insert s.retired s.ranges ns nd
          omega
      · split at hr
        · split at hr
          · refine weaken ?_ (addRange_grows h (by omega) hr)
            rw [List.length_drop]; omega
          · cases hr; exact Grows.refl s _
        · exact weaken hndl (addRange_grows h hret hr)

theorem readLoop_held : ∀ {m : SMap Bytes} {retired space : Nat} {out : Bytes} {ret : Nat} {keep : Option (SMap Bytes)},
    Disj m → (∀ e ∈ m, e.2 ≠ [] ∧ retired < rend e) → readLoop m retired space = .ok (out, ret, keep) →
    heldAt ret (keep.getD []) + out.length = heldAt retired m := by
  intro m
  induction m with
  | nil => intro retired space out ret keep _ _ h; cases h; rfl
  | cons e m ih =>
    intro retired space out ret keep hd hl h
    obtain ⟨start, d⟩ := e
    have hd' := disj_cons.mp hd
    have hl0 := hl (start, d) (by simp)
    simp only [rend] at hl0 hd'
    unfold readLoop at h
    by_cases hge : retired ≥ start
    · rw [if_pos hge] at h
      simp only at h
      rw [if_neg (by omega)] at h
      have hcong : ∀ r, r ≤ start + d.length → heldAt r m = heldAt retired m := fun r hr =>
        heldAt_congr fun e he => by have := hd'.1 e he; omega
      by_cases hsp : d.length - (retired - start) > space
      · rw [if_pos hsp] at h
        cases h
        simp only [Option.getD_some, heldAt_cons]
        rw [hcong _ (by omega), List.length_take, List.length_drop]
        unfold unread
        simp only
        omega
      · rw [if_neg hsp] at h
        split at h
        · cases h
        · rename_i o1 r1 k1 hrec
          cases h
          have := ih hd'.2 (fun e he => by
            have h1 := hd'.1 e he
            have h2 := (hl e (by simp [he])).1
            have h3 : 0 < e.2.length := List.length_pos_iff.mpr h2
            refine ⟨h2, ?_⟩
            simp only [rend]; omega) hrec
          rw [hcong _ (by omega)] at this
          rw [heldAt_cons, List.length_append, List.length_drop]
          unfold unread
          simp only
          omega
    · rw [if_neg hge] at h
      cases h
      rfl

theorem read_held {R} {s s' : Rx} (h : Inv R s) {n : Nat} {out : Bytes} (hr : s.read n = .ok (s', out)) :
    s'.held + out.length = s.held ∧ s'.received = s.received := by
  unfold Rx.read at hr
  split at hr
  · cases hr
  · rename_i o r k hk
    cases hr
    exact ⟨readLoop_held h.disj h.live hk, rfl⟩
  · rename_i o r hk
    cases hr
    exact ⟨readLoop_held h.disj h.live hk, rfl⟩

end Neqo.Recv
