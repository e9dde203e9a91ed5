import Verif.RecvStream.RxLemmas

/-! The reassembly invariant is preserved by every operation. -/
namespace Neqo.Recv
open Neqo.Codec (Bytes)

theorem mk_removed {R R' s} (h : Inv R s) {ns ne len : Nat} {A hi rest : SMap Bytes}
    (hm : s.ranges = A ++ hi)
    (hsp : ScanSpec ns ne len hi rest 0) (hpos : 0 < len) (hadd : Adds R R' ns ne) :
    Inv R' { s with ranges := A ++ rest } := by
  have hd := h.disj
  rw [hm] at hd
  have hsub : (A ++ rest).Sublist (A ++ hi) := (List.Sublist.refl A).append hsp.suffix.sublist
  have hmem : ∀ e ∈ A ++ rest, e ∈ s.ranges := fun e he => by rw [hm]; exact hsub.subset he
  obtain ⟨e0, he0, hee0⟩ := hsp.trunc hpos
  refine ⟨sublist_disj hsub hd, fun e he => (h.data e (hmem e he)).mono hadd.mono,
    fun e he => h.live e (hmem e he), ?_,
    fun i hi => let ⟨b, hb⟩ := h.past i hi; ⟨b, hadd.mono i b hb⟩,
    fun e he => h.endUp e (hmem e he), ?_⟩
  · intro i hi'
    simp only at hi' ⊢
    rw [hadd.ex i, h.cover i hi', hm, cov_append, cov_append]
    have := hsp.cov i
    constructor
    · rintro ((h1 | h1) | h1)
      · exact .inl h1
      · rcases this.mp (.inl h1) with h2 | h2
        · exact .inr h2
        · omega
      · rcases this.mp (.inr h1) with h2 | h2
        · exact .inr h2
        · omega
    · rintro (h1 | h1)
      · exact .inl (.inl h1)
      · rcases this.mpr (.inl h1) with h2 | h2
        · exact .inl (.inr h2)
        · exact .inr h2
  · right
    simp only [List.mem_append]
    rcases h.endEq with ⟨h0, _⟩ | ⟨e, he, hee⟩
    · have := hmem e0 (by simp [he0]); rw [h0] at this; cases this
    · rw [hm, List.mem_append] at he
      rcases he with he | he
      · exact ⟨e, .inl he, hee⟩
      · rcases hsp.removed e he with he | he
        · exact ⟨e, .inr he, hee⟩
        · have := h.endUp e0 (hmem e0 (by simp [he0])); omega

theorem insertRange_ok {s s' : Rx} {k : Nat} {v : Bytes} (h : s.insertRange k v = .ok s') :
    s' = { s with ranges := s.ranges.insert k v } := by
  unfold Rx.insertRange Rx.checkGapLimit at h
  simp only at h
  split at h
  · cases h
  · cases h; rfl

theorem scanNext_le (ne len : Nat) (hi : SMap Bytes) : (scanNext ne len hi).2 ≤ len := by
  induction hi with
  | nil => simp [scanNext]
  | cons e hi ih =>
    obtain ⟨a, d⟩ := e
    simp only [scanNext]
    split
    · simp
    · split
      · simp
      · exact ih

/-- What `extend` may be, relative to the ranges below `ns`. -/
def ExtOk (ns : Nat) (A : SMap Bytes) : Option (Nat × Nat) → Prop
  | none => True
  | some (ps, pl) => ∃ A' pv, A = A' ++ [(ps, pv)] ∧ pv.length = pl ∧ ps + pl = ns

theorem addRange_inv {R R'} {s s' : Rx} (h : Inv R s) {ns ne : Nat} {data : Bytes}
    {ext : Option (Nat × Nat)}
    (hadd : Adds R R' ns ne) (hdata : Ok R' ns data) (hlen : ne = ns + data.length)
    (hpos : 0 < data.length) (hns : s.retired ≤ ns)
    (hA : ∀ e ∈ s.ranges.below ns, rend e ≤ ns) (hext : ExtOk ns (s.ranges.below ns) ext)
    (hr : s.addRange ns ne data ext = .ok s') : Inv R' s' := by
  have hm := h.sorted.split_below ns
  generalize hAdef : s.ranges.below ns = A at *
  generalize hhi : s.ranges.atOrAfter ns = hi at *
  have hhid : Disj hi := by
    have := h.disj; rw [hm, disj_append] at this; exact this.2.1
  have hhk : ∀ e ∈ hi, ns ≤ e.1 := fun e he => by
    rw [← hhi] at he; exact (SMap.mem_atOrAfter.mp he).2
  have hsp := scanNext_spec ns ne data.length hlen hi hhid hhk
  unfold Rx.addRange at hr
  simp only [hhi, hAdef] at hr
  generalize hrest : (scanNext ne data.length hi).1 = rest at *
  generalize haddLen : (scanNext ne data.length hi).2 = addLen at *
  have hle := hsp.le
  have htake := hdata.take addLen
  have htl : (data.take addLen).length = addLen := by rw [List.length_take]; omega
  generalize hvdef : data.take addLen = v at *
  by_cases h0 : addLen = 0
  · subst h0
    have hvnil : v = [] := List.length_eq_zero_iff.mp htl
    rw [if_pos hvnil] at hr
    cases hr
    exact mk_removed h hm hsp hpos hadd
  · have hne : v ≠ [] := by rintro rfl; simp at htl; omega
    rw [if_neg hne] at hr
    rw [← htl] at hsp
    have hins := mk_inserted h hm hA hsp hlen hns hadd htake hne
    have hafter := hsp.after
    have hvpos : 0 < v.length := List.length_pos_iff.mpr hne
    cases ext with
    | none =>
      simp only at hr
      have := insertRange_ok hr
      rw [this]
      simp only
      rw [insert_eq_mid]
      · exact hins
      · intro e he
        have h1 := hA e he
        have h2 : e ∈ s.ranges := by rw [hm]; simp [he]
        have h3 : 0 < e.2.length := List.length_pos_iff.mpr (h.live e h2).1
        unfold rend at h1; omega
      · intro e he; have := hafter e he; omega
    | some pp =>
      obtain ⟨ps, pl⟩ := pp
      obtain ⟨A', pv, hA', hpvl, hpl⟩ := hext
      subst hpvl
      simp only at hr
      subst hpl
      -- the inserted form, then merge with the previous range
      rw [hA', List.append_assoc] at hins
      have hmrg := merge_adjacent (A := A') (k := ps) (u := pv) (v := v) (B := rest) rfl hins (by simp)
      have hsort : SMap.Sorted (A' ++ (ps, pv ++ v) :: rest) := hmrg.sorted
      have hsort' := SMap.sorted_append.mp hsort
      have hsortc := SMap.sorted_cons.mp hsort'.2.1
      have hA'lt : ∀ e ∈ A', e.1 < ps := fun e he =>
        hsort'.2.2 e he (ps, pv ++ v) (by simp)
      have hA'ne : ∀ e ∈ A', e.1 ≠ ps := fun e he => Nat.ne_of_lt (hA'lt e he)
      have hrestne : ∀ e ∈ rest, e.1 ≠ ps := fun e he => by
        have := hsortc.1 e he; simp only at this; omega
      have hbase : A ++ rest = A' ++ (ps, pv) :: rest := by rw [hA']; simp
      have hbs : SMap.Sorted (A' ++ (ps, pv) :: rest) := by
        rw [← hbase]
        have := h.sorted
        rw [hm] at this
        exact List.Pairwise.sublist ((List.Sublist.refl A).append hsp.suffix.sublist) this
      rw [hbase] at hr
      generalize hnx : absorbNext (A' ++ (ps, pv) :: rest) (ps + pv.length + v.length)
        (pv.length + v.length) = nx at hr
      cases nx with
      | none =>
        simp only [Option.isSome_none, Bool.false_eq_true, if_false, Option.getD_none,
          List.append_nil] at hr
        rw [modify_mid hA'ne hrestne] at hr
        cases hr
        exact hmrg
      | some n =>
        have hfind : SMap.find (A' ++ (ps, pv) :: rest) (ps + pv.length + v.length) = some n := by
          revert hnx
          unfold absorbNext
          cases SMap.find (A' ++ (ps, pv) :: rest) (ps + pv.length + v.length) with
          | none => intro h; cases h
          | some n' =>
            simp only
            split
            · intro h; cases h; rfl
            · intro h; cases h
        have hmem := (hbs.find_eq_some).mp hfind
        simp only [List.mem_append, List.mem_cons, Prod.mk.injEq] at hmem
        -- it must be in `rest`
        have hmemr : (ps + pv.length + v.length, n) ∈ rest := by
          rcases hmem with h1 | ⟨h1, _⟩ | h1
          · have := hA'lt _ h1
            simp only at this; omega
          · omega
          · exact h1
        -- and it is its head
        obtain ⟨B, hB⟩ : ∃ B, rest = (ps + pv.length + v.length, n) :: B := by
          cases hrc : rest with
          | nil => rw [hrc] at hmemr; cases hmemr
          | cons e B =>
            rw [hrc] at hmemr hsortc
            rcases List.mem_cons.mp hmemr with h1 | h1
            · exact ⟨B, by rw [h1]⟩
            · have h2 := (SMap.sorted_cons.mp hsortc.2).1 _ h1
              have h3 := hafter e (by rw [hrc]; simp)
              simp only at h2; omega
        have hBk : ∀ e ∈ B, ps + pv.length + v.length < e.1 := fun e he => by
          have h2 := hsortc.2
          rw [hB] at h2
          exact (SMap.sorted_cons.mp h2).1 e he
        simp only [Option.isSome_some, if_true, Option.getD_some] at hr
        rw [hB] at hr
        rw [show A' ++ (ps, pv) :: (ps + pv.length + v.length, n) :: B =
          (A' ++ [(ps, pv)]) ++ (ps + pv.length + v.length, n) :: B by simp] at hr
        rw [erase_mid] at hr
        · rw [show (A' ++ [(ps, pv)]) ++ B = A' ++ (ps, pv) :: B by simp] at hr
          rw [modify_mid hA'ne (fun e he => hrestne e (by rw [hB]; simp [he]))] at hr
          cases hr
          exact merge_adjacent (A := A') (k := ps) (u := pv ++ v) (v := n) (B := B)
            (k' := ps + pv.length + v.length)
            (by rw [List.length_append, Nat.add_assoc]) hmrg (by rw [hB])
        · intro e he
          simp only [List.mem_append, List.mem_singleton] at he
          rcases he with he | rfl
          · have := hA'lt e he
            omega
          · simp only; omega
        · intro e he; have := hBk e he; omega

theorem scanSpec_nil (ns len : Nat) : ScanSpec ns (ns + len) len [] [] len :=
  ⟨List.suffix_refl _, Nat.le_refl _, by simp, by simp, by omega, by simp⟩

theorem getLast_rend {R s} (h : Inv R s) {k : Nat} {v : Bytes} {A : SMap Bytes}
    (hm : s.ranges = A ++ [(k, v)]) : k + v.length = s.end_ := by
  have hd := h.disj
  rw [hm, disj_append] at hd
  have hup := h.endUp (k, v) (by rw [hm]; simp)
  rcases h.endEq with ⟨h0, _⟩ | ⟨e, he, hee⟩
  · rw [hm] at h0; simp at h0
  · rw [hm, List.mem_append] at he
    rcases he with he | he
    · have := hd.2.2 e he (k, v) (by simp)
      unfold rend at *; simp only at *; omega
    · simp at he; subst he; exact hee

theorem getLast?_split {m : SMap Bytes} {e : Nat × Bytes} (h : m.getLast? = some e) :
    m = m.dropLast ++ [e] := by
  have hne : m ≠ [] := by rintro rfl; cases h
  rw [List.getLast?_eq_some_getLast hne] at h
  cases h
  exact (List.dropLast_concat_getLast hne).symm

/-- The bytes received after one more frame. -/
def Rcv.add (R : Rcv) (start : Nat) (data : Bytes) : Rcv :=
  fun i b => R i b ∨ (start ≤ i ∧ data[i - start]? = some b)

theorem Rcv.add_ex (R : Rcv) (start : Nat) (data : Bytes) (i : Nat) :
    (∃ b, Rcv.add R start data i b) ↔ (∃ b, R i b) ∨ (start ≤ i ∧ i < start + data.length) := by
  unfold Rcv.add
  constructor
  · rintro ⟨b, h | ⟨h1, h2⟩⟩
    · exact .inl ⟨b, h⟩
    · have := (List.getElem?_eq_some_iff.mp h2).1
      exact .inr ⟨h1, by omega⟩
  · rintro (⟨b, h⟩ | ⟨h1, h2⟩)
    · exact ⟨b, .inl h⟩
    · exact ⟨data[i - start], .inr ⟨h1, List.getElem?_eq_getElem (by omega)⟩⟩

theorem Rcv.add_ok (R : Rcv) (start : Nat) (data : Bytes) : Ok (R.add start data) start data := by
  intro i b hb
  exact .inr ⟨by omega, by rw [Nat.add_sub_cancel_left]; exact hb⟩

theorem inboundFrame_inv {R} {s s' : Rx} (h : Inv R s) {start : Nat} {data : Bytes}
    (hr : s.inboundFrame start data = .ok s') : Inv (R.add start data) s' := by
  have hmono : ∀ i b, R i b → R.add start data i b := fun i b hb => .inl hb
  have hex := Rcv.add_ex R start data
  have hok := Rcv.add_ok R start data
  generalize hR' : R.add start data = R' at *
  have keep : (∀ i, start ≤ i → i < start + data.length → ∃ b, R i b) → Inv R' s := fun hall =>
    h.widen hmono (fun i hi => ((hex i).mp hi).elim id (fun h' => hall i h'.1 h'.2))
  unfold Rx.inboundFrame at hr
  simp only at hr
  split at hr
  · cases hr
    exact keep (fun i _ h2 => h.past i (by omega))
  rename_i hnew
  generalize hnsd : (if start < s.retired then s.retired else start) = ns at hr
  have hns : s.retired ≤ ns := by subst hnsd; split <;> omega
  have hnsle : ns < start + data.length ∨ (start = ns ∧ data.length = 0) := by
    subst hnsd; split <;> omega
  generalize hnd : (if start < s.retired then data.drop (s.retired - start) else data) = nd at hr
  have hnsc : (start < s.retired ∧ ns = s.retired) ∨ (s.retired ≤ start ∧ ns = start) := by
    subst hnsd; split <;> omega
  have hndl : start + data.length = ns + nd.length := by
    subst hnsd hnd; split <;> simp only [List.length_drop] <;> omega
  have hndok : Ok R' ns nd := by
    subst hnsd hnd
    split
    · have := hok.drop (s.retired - start)
      rwa [show start + (s.retired - start) = s.retired by omega] at this
    · exact hok
  have hadd : Adds R R' ns (ns + nd.length) := by
    refine ⟨hmono, fun i => ?_⟩
    rw [hex i, hndl]
    constructor
    · rintro (h1 | h1)
      · exact .inl h1
      · by_cases hi : i < s.retired
        · exact .inl (h.past i hi)
        · right; omega
    · rintro (h1 | h1)
      · exact .inl h1
      · right; omega
  rw [hndl] at hr keep
  clear hnd hnsd hnew hok hex
  by_cases hne : nd = []
  · subst hne
    rw [if_pos rfl] at hr
    cases hr
    exact keep (fun i _ h2 => by simp only [List.length_nil] at *; omega)
  have hpos : 0 < nd.length := List.length_pos_iff.mpr hne
  rw [if_neg hne] at hr
  split at hr
  · -- at or after the end
    rename_i hge
    have hins := mk_inserted h (A := s.ranges) (hi := []) (rest := []) (by simp)
      (fun e he => by have := h.endUp e he; omega) (scanSpec_nil ns nd.length) rfl hns hadd hndok hne
    have hmax : max s.end_ (ns + nd.length) = ns + nd.length := by omega
    rw [hmax] at hins
    have hinsert : ∀ s'', Rx.insertRange
        { s with received := s.received + nd.length, end_ := ns + nd.length } ns nd = .ok s'' →
        Inv R' s'' := by
      intro s'' hs''
      have := insertRange_ok hs''
      rw [this]
      simp only
      have hi := insert_eq_mid (A := s.ranges) (B := []) (k := ns) (v := nd)
        (fun e he => by
          have h1 := h.endUp e he
          have h3 : 0 < e.2.length := List.length_pos_iff.mpr (h.live e he).1
          unfold rend at h1; omega) (by simp)
      rw [List.append_nil] at hi
      rw [hi]; exact hins
    split at hr
    · rename_i k v hlast
      split at hr
      · rename_i hadj
        cases hr
        have hsplit := getLast?_split hlast
        have hkv := getLast_rend h hsplit
        exact merge_adjacent (A := s.ranges.dropLast) (k := k) (u := v) (v := nd) (B := [])
          (k' := ns) (by omega) hins (by
            simp only
            conv => lhs; rw [hsplit]
            simp)
      · exact hinsert _ hr
    · exact hinsert _ hr
  · -- overlapping the buffered span
    rename_i hlt
    split at hr
    · rename_i prevStart prevVec hlast
      have hsplit := getLast?_split hlast
      have hpm : (prevStart, prevVec) ∈ s.ranges.upto ns := by rw [hsplit]; simp
      have hpm' := SMap.mem_upto.mp hpm
      have hple : prevStart ≤ ns := hpm'.2
      have hplive := h.live _ hpm'.1
      have hpl : 0 < prevVec.length := List.length_pos_iff.mpr hplive.1
      have hprevcov : ∀ i, ns ≤ i → i < prevStart + prevVec.length → ∃ b, R i b := by
        intro i h1 h2
        rw [h.cover i (by omega)]
        exact ⟨_, hpm'.1, by simp only; omega, h2⟩
      split at hr
      · rename_i hgt
        have hm := h.sorted.split_upto ns
        have hdj := h.disj
        rw [hm, hsplit, List.append_assoc, disj_append] at hdj
        have hdj2 := disj_cons.mp hdj.2.1
        -- the new start
        generalize hns' : ns + (prevStart + prevVec.length - ns) = ns' at hr
        have hov : ns ≤ ns' ∧ prevStart + prevVec.length ≤ ns' ∧ ns' < ns + nd.length := by omega
        have hdropok : Ok R' ns' (nd.drop (prevStart + prevVec.length - ns)) := by
          rw [← hns']; exact hndok.drop _
        have hdropl : ns + nd.length = ns' + (nd.drop (prevStart + prevVec.length - ns)).length := by
          rw [List.length_drop]; omega
        -- ranges below the new start are exactly those up to the old one
        have hbelow : s.ranges.below ns' = s.ranges.upto ns := by
          conv => lhs; rw [hm]
          unfold SMap.below
          rw [List.filter_append, SMap.filter_eq_self_of, SMap.filter_eq_nil_of, List.append_nil]
          · intro e he
            have h1 := (SMap.mem_above.mp he).2
            have h2 := hdj2.1 e he
            unfold rend at h2; simp only at h2
            simp; omega
          · intro e he
            have h1 := (SMap.mem_upto.mp he).2
            rw [hsplit, List.mem_append] at he
            rcases he with he | he
            · have := hdj.2.2 e he (prevStart, prevVec) (by simp)
              have h3 : 0 < e.2.length := by
                apply List.length_pos_iff.mpr
                refine (h.live e ?_).1
                rw [hm, hsplit]; simp [he]
              unfold rend at this; simp only at this; simp; omega
            · simp at he; subst he; simp; omega
        refine addRange_inv h (R' := R') (ns := ns') (ne := ns + nd.length) ?_ hdropok hdropl
          (by omega) (by omega) ?_ ?_ hr
        · refine ⟨hmono, fun i => ?_⟩
          rw [hadd.ex i]
          constructor
          · rintro (h1 | h1)
            · exact .inl h1
            · by_cases hi : ns' ≤ i
              · exact .inr ⟨hi, h1.2⟩
              · exact .inl (hprevcov i h1.1 (by omega))
          · rintro (h1 | h1)
            · exact .inl h1
            · exact .inr ⟨by omega, h1.2⟩
        · intro e he
          rw [hbelow, hsplit, List.mem_append] at he
          rcases he with he | he
          · have := hdj.2.2 e he (prevStart, prevVec) (by simp)
            simp only at this; omega
          · simp at he; subst he; simp only [rend]; omega
        · rw [hbelow]
          split
          · rename_i hc
            exact ⟨(s.ranges.upto ns).dropLast, prevVec, hsplit, rfl, by omega⟩
          · trivial
      · rename_i hngt
        cases hr
        exact h.widen hmono (fun i hi => ((hadd.ex i).mp hi).elim id
          (fun h' => hprevcov i h'.1 (by omega)))
    · rename_i hnone
      have hnil : s.ranges.upto ns = [] := List.getLast?_eq_none_iff.mp hnone
      have hb : s.ranges.below ns = [] := by
        rw [List.eq_nil_iff_forall_not_mem]
        intro e he
        have h1 := SMap.mem_below.mp he
        have : e ∈ s.ranges.upto ns := SMap.mem_upto.mpr ⟨h1.1, by omega⟩
        rw [hnil] at this; cases this
      exact addRange_inv h (ns := ns) (ext := none) hadd hndok rfl hpos hns (by rw [hb]; simp) trivial hr

theorem inboundFrame_error {s : Rx} {start : Nat} {data : Bytes} {e : Err}
    (h : s.inboundFrame start data = .error e) : e = .protocolViolation := by
  have hins : ∀ (s : Rx) k v, s.insertRange k v = .error e → e = .protocolViolation := by
    intro s k v h
    unfold Rx.insertRange Rx.checkGapLimit at h
    simp only at h
    split at h
    · cases h; rfl
    · cases h
  have hadd : ∀ (s : Rx) a b c d, s.addRange a b c d = .error e → e = .protocolViolation := by
    intro s a b c d h
    unfold Rx.addRange at h
    simp only at h
    split at h
    · cases h
    · split at h
      · cases h
      · exact hins _ _ _ h
  unfold Rx.inboundFrame at h
  simp only at h
  repeat' split at h
  all_goals first | exact hins _ _ _ h | exact hadd _ _ _ _ _ h | cases h

/-! ### Reading -/

structure ReadSpec (R : Rcv) (m : SMap Bytes) (retired space : Nat) (out : Bytes) (ret : Nat)
    (keep : Option (SMap Bytes)) : Prop where
  ok : Ok R retired out
  retEq : ret = retired + out.length
  le : out.length ≤ space
  covd : ∀ i, retired ≤ i → i < ret → Cov m i
  stop : out.length < space → ¬ Cov m ret
  kept : ∀ k, keep = some k → k <:+ m ∧ k ≠ [] ∧ (∀ e ∈ k, ret < rend e)
  after : ∀ i, ret ≤ i → (Cov m i ↔ Cov (keep.getD []) i)
  gone : keep = none → ∀ e ∈ m, rend e ≤ ret

theorem readLoop_spec {R : Rcv} (m : SMap Bytes) : ∀ (retired space : Nat), Disj m →
    (∀ e ∈ m, Ok R e.1 e.2) → (∀ e ∈ m, e.2 ≠ [] ∧ retired < rend e) →
    ∃ out ret keep, readLoop m retired space = .ok (out, ret, keep) ∧
      ReadSpec R m retired space out ret keep := by
  induction m with
  | nil =>
    intro retired space _ _ _
    exact ⟨[], retired, none, rfl,
      ⟨by intro i b h; simp at h, by simp, by simp, by omega, by simp, by simp, by simp, by simp⟩⟩
  | cons e m ih =>
    intro retired space hd hok hlive
    obtain ⟨start, d⟩ := e
    have hd' := disj_cons.mp hd
    have hl := hlive (start, d) (by simp)
    have hokd : Ok R start d := hok (start, d) (by simp)
    simp only [rend] at hl
    have hdpos : 0 < d.length := List.length_pos_iff.mpr hl.1
    unfold readLoop
    by_cases hge : retired ≥ start
    · rw [if_pos hge]
      simp only
      rw [if_neg (by omega)]
      by_cases hsp : d.length - (retired - start) > space
      · rw [if_pos hsp]
        refine ⟨_, _, _, rfl, ?_⟩
        have hlen : ((d.drop (retired - start)).take space).length = space := by
          rw [List.length_take, List.length_drop]; omega
        refine ⟨?_, by rw [hlen], by omega, ?_, by omega, ?_, ?_, by simp⟩
        · have := (hokd.drop (retired - start)).take space
          rwa [show start + (retired - start) = retired by omega] at this
        · intro i h1 h2
          exact ⟨(start, d), by simp, by simp only; omega, by simp only [rend]; omega⟩
        · intro k hk; cases hk
          refine ⟨List.suffix_refl _, by simp, ?_⟩
          intro e he
          rcases List.mem_cons.mp he with rfl | he
          · simp only [rend]; omega
          · have h1 := hd'.1 e he
            have h2 := (hlive e (by simp [he])).1
            have h3 : 0 < e.2.length := List.length_pos_iff.mpr h2
            simp only [rend] at h1 ⊢; omega
        · intro i _; rfl
      · rw [if_neg hsp]
        have hrec := ih (retired + (d.length - (retired - start)))
          (space - (d.length - (retired - start))) hd'.2 (fun e he => hok e (by simp [he])) (by
            intro e he
            have h1 := hd'.1 e he
            have h2 := (hlive e (by simp [he])).1
            have h3 : 0 < e.2.length := List.length_pos_iff.mpr h2
            refine ⟨h2, ?_⟩
            simp only [rend] at h1 ⊢; omega)
        obtain ⟨out, ret, keep, heq, hs⟩ := hrec
        rw [heq]
        refine ⟨_, _, _, rfl, ?_⟩
        have hdl : (d.drop (retired - start)).length = d.length - (retired - start) := by
          rw [List.length_drop]
        have hr := hs.retEq
        have hle := hs.le
        refine ⟨?_, by rw [List.length_append]; omega, by rw [List.length_append]; omega, ?_, ?_, ?_, ?_, ?_⟩
        · apply Ok.append
          · have := hokd.drop (retired - start)
            rwa [show start + (retired - start) = retired by omega] at this
          · rw [hdl]; exact hs.ok
        · intro i h1 h2
          rw [cov_cons]
          by_cases hi : i < start + d.length
          · left; simp only [rend]; omega
          · right; exact hs.covd i (by omega) h2
        · intro hlt
          rw [List.length_append] at hlt
          rw [cov_cons]
          rintro (h1 | h1)
          · simp only [rend] at h1; omega
          · exact hs.stop (by omega) h1
        · intro k hk
          obtain ⟨h1, h2, h3⟩ := hs.kept k hk
          exact ⟨h1.trans (List.suffix_cons _ _), h2, h3⟩
        · intro i hi
          rw [cov_cons, ← hs.after i hi]
          constructor
          · rintro (h1 | h1)
            · simp only [rend] at h1; omega
            · exact h1
          · exact .inr
        · intro hk e he
          rcases List.mem_cons.mp he with rfl | he
          · simp only [rend]; omega
          · exact hs.gone hk e he
    · rw [if_neg hge]
      refine ⟨_, _, _, rfl, ⟨by intro i b h; simp at h, by simp, by simp, by omega, ?_, ?_, fun i _ => Iff.rfl, by simp⟩⟩
      · rintro _ ⟨e, he, h1, h2⟩
        rcases List.mem_cons.mp he with rfl | he
        · simp only at h1; omega
        · have := hd'.1 e he; simp only [rend] at this; omega
      · intro k hk; cases hk
        exact ⟨List.suffix_refl _, by simp, fun e he => (hlive e he).2⟩

theorem read_inv {R} {s : Rx} (h : Inv R s) (n : Nat) :
    ∃ s' out, s.read n = .ok (s', out) ∧ Inv R s' ∧ Ok R s.retired out ∧
      s'.retired = s.retired + out.length ∧ out.length ≤ n ∧
      (out.length < n → ¬ ∃ b, R s'.retired b) := by
  obtain ⟨out, ret, keep, heq, hs⟩ := readLoop_spec (R := R) s.ranges s.retired n h.disj h.data h.live
  have hret := hs.retEq
  have hstop : out.length < n → ¬ ∃ b, R ret b := fun hlt hb =>
    hs.stop hlt ((h.cover ret (by omega)).mp hb)
  have hpast : ∀ i, i < ret → ∃ b, R i b := by
    intro i hi
    by_cases hlt : i < s.retired
    · exact h.past i hlt
    · exact (h.cover i (by omega)).mpr (hs.covd i (by omega) hi)
  unfold Rx.read
  rw [heq]
  cases keep with
  | none =>
    refine ⟨_, _, rfl, ⟨List.Pairwise.nil, by simp, by simp, ?_, hpast, by simp, .inl ⟨rfl, rfl⟩⟩,
      hs.ok, hret, hs.le, hstop⟩
    intro i hi
    simp only at hi
    rw [h.cover i (by omega), hs.after i hi]; rfl
  | some k =>
    obtain ⟨hsuf, hne, hlive⟩ := hs.kept k rfl
    have hmem : ∀ e ∈ k, e ∈ s.ranges := fun e he => hsuf.subset he
    refine ⟨_, _, rfl, ⟨sublist_disj hsuf.sublist h.disj, fun e he => h.data e (hmem e he),
      fun e he => ⟨(h.live e (hmem e he)).1, hlive e he⟩, ?_, hpast,
      fun e he => h.endUp e (hmem e he), ?_⟩, hs.ok, hret, hs.le, hstop⟩
    · intro i hi
      simp only at hi
      rw [h.cover i (by omega), hs.after i hi]; rfl
    · right
      -- the last range is kept
      have hr0 : s.ranges ≠ [] := by
        intro h0; rw [h0] at hsuf; exact hne (List.suffix_nil.mp hsuf)
      have hlastk : k.getLast hne = s.ranges.getLast hr0 := by
        obtain ⟨pre, hpre⟩ := hsuf
        have : s.ranges.getLast hr0 = (pre ++ k).getLast (by simp [hne]) := by
          simp only [hpre]
        rw [this, List.getLast_append_of_ne_nil _ hne]
      have hsplit : s.ranges = s.ranges.dropLast ++ [s.ranges.getLast hr0] :=
        (List.dropLast_concat_getLast hr0).symm
      refine ⟨k.getLast hne, List.getLast_mem hne, ?_⟩
      rw [hlastk]
      exact getLast_rend h (k := (s.ranges.getLast hr0).1) (v := (s.ranges.getLast hr0).2) hsplit

/-! ### Readiness -/

theorem bytesReadyGo_spec {R : Rcv} (retired : Nat) (m : SMap Bytes) : ∀ (prevEnd : Nat), Disj m →
    retired ≤ prevEnd → (∀ e ∈ m, e.2 ≠ [] ∧ prevEnd < rend e ∧ (retired < prevEnd → prevEnd ≤ e.1)) →
    (∀ i, prevEnd ≤ i → i < prevEnd + bytesReadyGo retired m prevEnd → Cov m i) ∧
    ¬ Cov m (prevEnd + bytesReadyGo retired m prevEnd) := by
  induction m with
  | nil => intro p _ _ _; refine ⟨fun i h1 h2 => ?_, by simp⟩; simp only [bytesReadyGo] at h2; omega
  | cons e m ih =>
    intro p hd hp hlive
    obtain ⟨start, d⟩ := e
    have hd' := disj_cons.mp hd
    have hl := hlive (start, d) (by simp)
    simp only [rend] at hl
    unfold bytesReadyGo
    simp only
    split
    · rename_i hst
      have hpe : p + (d.length - (retired - start)) = start + d.length := by omega
      have hrec := ih (p + (d.length - (retired - start))) hd'.2 (by omega) (by
        intro e he
        have h1 := hd'.1 e he
        have h2 := (hlive e (by simp [he])).1
        have h3 : 0 < e.2.length := List.length_pos_iff.mpr h2
        simp only [rend] at h1 ⊢
        exact ⟨h2, by omega, by omega⟩)
      generalize bytesReadyGo retired m (p + (d.length - (retired - start))) = k at *
      constructor
      · intro i h1 h2
        rw [cov_cons]
        by_cases hi : i < start + d.length
        · left; simp only [rend]; omega
        · right; exact hrec.1 i (by omega) (by omega)
      · rw [cov_cons]
        rintro (h1 | h1)
        · simp only [rend] at h1; omega
        · rw [← Nat.add_assoc] at h1; exact hrec.2 h1
    · rename_i hst
      constructor
      · intro i h1 h2; omega
      · rintro ⟨e, he, h1, h2⟩
        rcases List.mem_cons.mp he with rfl | he
        · simp only at h1; omega
        · have := hd'.1 e he; simp only [rend] at this; omega

theorem bytesReady_spec {R} {s : Rx} (h : Inv R s) :
    (∀ i, s.retired ≤ i → i < s.retired + s.bytesReady → ∃ b, R i b) ∧
    ¬ ∃ b, R (s.retired + s.bytesReady) b := by
  have := bytesReadyGo_spec (R := R) s.retired s.ranges s.retired h.disj (Nat.le_refl _)
    (fun e he => ⟨(h.live e he).1, (h.live e he).2, by omega⟩)
  refine ⟨fun i h1 h2 => (h.cover i h1).mpr (this.1 i h1 h2), fun hb => this.2 ?_⟩
  exact (h.cover _ (by omega)).mp hb

theorem dataReady_spec {R} {s : Rx} (h : Inv R s) : s.dataReady = true ↔ ∃ b, R s.retired b := by
  rw [h.cover _ (Nat.le_refl _)]
  have hd := h.disj
  have hl := h.live
  unfold Rx.dataReady
  cases hm : s.ranges with
  | nil => simp
  | cons e m =>
    obtain ⟨start, d⟩ := e
    rw [hm] at hd hl
    have hd' := disj_cons.mp hd
    simp only [decide_eq_true_eq]
    constructor
    · intro h1; exact ⟨(start, d), by simp, h1, (hl _ (by simp)).2⟩
    · rintro ⟨e, he, h1, h2⟩
      rcases List.mem_cons.mp he with rfl | he
      · exact h1
      · have := hd'.1 e he; simp only [rend] at this; omega

end Neqo.Recv
