import Verif.Tparams.Decode

/-!
# Transport parameters: C36
-/
namespace Neqo.Tp
open Neqo.Codec

/-- Transport parameters are read from bytes exactly if the bytes describe them: known parameters occur
once, with valid values, and only those that may be sent to the reader; others are skipped. -/
theorem C36_decode {role : Role} {b : Bytes} {p : Params} : decodeParams role b = .ok p ↔ Describes role p b := params_ok

/-- A limit on data, an unknown parameter and a limit on streams. -/
example : (decodeParams .server [4, 2, 0x43, 0xe8, 0x2b, 1, 9, 8, 1, 5]).toOption.map
    (fun p => (p .initialMaxData, p .initialMaxStreamsBidi, p .idleTimeout)) = some (some (.int 1000), some (.int 5), none) := by
  decide +kernel

/-- Writing valid parameters, all or some, gives bytes from which the same are read. -/
theorem C36_round_trip {role : Role} {f : PId → Bool} {p : Params} (hv : ∀ i v, p i = some v → Valid i v ∧ v.Short)
    (hr : ∀ i, (p i).isSome → f i → serverOnly i → role = .client) :
    ∃ b, encodeParams f p = .ok b ∧ decodeParams role b = .ok (fun i => if f i then p i else none) := by
  obtain ⟨b, h1, h2⟩ := encode_ok hv hr
  exact ⟨b, h1, params_ok.mpr h2⟩

/-- Parameters of several kinds. -/
def sample : Params := fun i =>
  match i with
  | .initialMaxData => some (.int 100000)
  | .disableMigration => some .empty
  | .statelessResetToken => some (.bytes (List.replicate 16 3))
  | .preferredAddress => some (.preferred (some ([192, 0, 2, 1], 443)) none [1, 2, 3, 4, 5] (List.replicate 16 3))
  | .versionInformation => some (.versions 1 [0x1a2a3a4a, 0x6b3343cf, 1])
  | _ => none

example : ∀ i v, sample i = some v → Valid i v ∧ v.Short := by
  intro i v h
  cases i <;> simp only [sample, reduceCtorEq, Option.some.injEq] at h <;> subst h <;>
    simp [Valid, Value.Short, AddrValid] <;> decide

/-- No bytes describe two sets of parameters. -/
theorem C36_unambiguous {role : Role} {b : Bytes} {p q : Params} (hp : Describes role p b) (hq : Describes role q b) : p = q :=
  Except.ok.inj ((params_ok.mpr hp).symm.trans (params_ok.mpr hq))

/-- A known parameter that occurs twice is refused, whatever its values. -/
theorem C36_duplicate {role : Role} {b : Bytes} {ps : List (Nat × Bytes)} {i : PId} (hb : Raw ps b)
    (h : 2 ≤ (ps.filter (fun x => decide (x.1 = i.code))).length) : ∃ e, decodeParams role b = .error e := by
  cases hd : decodeParams role b with
  | error e => exact ⟨e, rfl⟩
  | ok p =>
    exfalso
    obtain ⟨qs, h1, h2, h3⟩ := params_ok.mp hd
    have hu : ps = qs := by
      clear hd h h2 h3
      induction ps generalizing b qs with
      | nil =>
        rw [show b = [] from hb] at h1
        exact (raw_nil h1).symm
      | cons x xs ih =>
        obtain ⟨n, c⟩ := x
        obtain ⟨x1, y1, z1, a1, a2, a3, rfl⟩ := hb
        cases qs with
        | nil =>
          have h1 : x1 ++ y1 ++ z1 = [] := h1
          have := congrArg List.length h1
          have h2 := List.length_pos_iff.mpr a1.ne_nil
          simp only [List.length_nil, List.length_append] at this
          omega
        | cons y ys =>
          obtain ⟨m, d⟩ := y
          obtain ⟨x2, y2, z2, b1, b2, b3, hb⟩ := h1
          have e1 := Frm.var_enc a1 (y1 ++ z1)
          have e2 := Frm.var_enc b1 (y2 ++ z2)
          rw [← List.append_assoc, hb, List.append_assoc, e2] at e1
          have e3 := Prod.mk.inj (Option.some.inj e1)
          have c1 : decodeVvec (y1 ++ z1) = some (c, z1) := counted_ok.mpr ⟨y1, a2, rfl⟩
          have c2 : decodeVvec (y2 ++ z2) = some (d, z2) := counted_ok.mpr ⟨y2, b2, rfl⟩
          rw [← e3.2, c2] at c1
          have c3 := Prod.mk.inj (Option.some.inj c1)
          rw [e3.1, c3.1]
          congr 1
          refine ih a3 _ ?_
          rw [← c3.2]; exact b3
    rw [hu, h3 i] at h
    split at h <;> omega

example : (match decodeParams .server [4, 1, 5, 4, 1, 5] with
    | .error e => decide (e = .transportParameter)
    | .ok _ => false) = true := by decide +kernel

/-- After reading, the value of every integer parameter can be had, without panic, and is the one that
was read, or the one that its absence means. -/
theorem C36_integer {role : Role} {b : Bytes} {p : Params} {i : PId} {m : Nat} (h : decodeParams role b = .ok p)
    (hi : integerDefault i = some m) : ∃ n, getInteger p i = .ok n ∧ IntegerIs p i n := by
  obtain ⟨ps, _, h2, h3⟩ := params_ok.mp h
  unfold getInteger
  rw [hi]
  cases hp : p i with
  | none =>
    refine ⟨m, rfl, Or.inr ⟨hp, ?_⟩⟩
    cases i <;> simp [integerDefault] at hi <;> subst hi <;> simp
  | some v =>
    have hv : Valid i v := by
      have h4 := h3 i
      rw [hp] at h4
      simp only [Option.isSome_some, if_true] at h4
      obtain ⟨x, hx⟩ := List.exists_mem_of_length_pos (show 0 < (ps.filter (fun x => decide (x.1 = i.code))).length by omega)
      obtain ⟨hm, hc⟩ := List.mem_filter.mp hx
      have hc : x.1 = i.code := by simpa using hc
      obtain ⟨w, hw, hv, _⟩ := h2 i x.2 (by rw [← hc]; exact hm)
      rw [hp] at hw
      cases hw
      exact hv
    cases v with
    | int n => exact ⟨n, rfl, Or.inl hp⟩
    | _ => cases i <;> simp [integerDefault] at hi <;> simp [Valid] at hv

/-- Every parameter that was read has a value of its kind, in its range. -/
theorem C36_valid {role : Role} {b : Bytes} {p : Params} {i : PId} {v : Value} (h : decodeParams role b = .ok p)
    (hp : p i = some v) : Valid i v ∧ (serverOnly i → role = .client) := by
  obtain ⟨ps, _, h2, h3⟩ := params_ok.mp h
  have h4 := h3 i
  rw [hp] at h4
  simp only [Option.isSome_some, if_true] at h4
  obtain ⟨x, hx⟩ := List.exists_mem_of_length_pos (show 0 < (ps.filter (fun x => decide (x.1 = i.code))).length by omega)
  obtain ⟨hm, hc⟩ := List.mem_filter.mp hx
  have hc : x.1 = i.code := by simpa using hc
  obtain ⟨w, hw, hv, _, hr⟩ := h2 i x.2 (by rw [← hc]; exact hm)
  rw [hp] at hw
  cases hw
  exact ⟨hv, hr⟩

/-- After reading, no use of the parameters panics. -/
theorem C36_no_panic {role : Role} {b : Bytes} {p : Params} (h : decodeParams role b = .ok p) :
    (∀ i, isBytes i → ∃ x, getBytes p i = .ok x) ∧ (∀ i, isEmpty i → ∃ x, getEmpty p i = .ok x) ∧
      ∃ x, getPreferred p = .ok x := by
  refine ⟨?_, ?_, ?_⟩
  · intro i hi
    unfold getBytes
    rw [if_pos hi]
    cases hp : p i with
    | none => exact ⟨_, rfl⟩
    | some v =>
      have hv := (C36_valid h hp).1
      cases v with
      | bytes b => exact ⟨_, rfl⟩
      | _ => cases i <;> simp [isBytes] at hi <;> simp [Valid] at hv
  · intro i hi
    unfold getEmpty
    cases hp : p i with
    | none => exact ⟨_, rfl⟩
    | some v =>
      have hv := (C36_valid h hp).1
      cases v with
      | empty => exact ⟨_, rfl⟩
      | _ => cases i <;> simp [isEmpty] at hi <;> simp [Valid] at hv
  · unfold getPreferred
    cases hp : p .preferredAddress with
    | none => exact ⟨_, rfl⟩
    | some v =>
      have hv := (C36_valid h hp).1
      cases v with
      | preferred v4 v6 cid srt =>
        obtain ⟨h1, h2, h3, _⟩ := hv
        have a4 : addrOk 4 v4 = true := by
          cases v4 with
          | none => rfl
          | some a =>
            obtain ⟨_, g1, g2, _⟩ := h1
            simp [addrOk]
            exact ⟨g1, by omega⟩
        have a6 : addrOk 16 v6 = true := by
          cases v6 with
          | none => rfl
          | some a =>
            obtain ⟨_, g1, g2, _⟩ := h2
            simp [addrOk]
            exact ⟨g1, by omega⟩
        have a0 : (v4.isSome || v6.isSome) = true := by
          rcases h3 with h | h
          · cases v4 with
            | none => exact absurd rfl h
            | some _ => rfl
          · cases v6 with
            | none => exact absurd rfl h
            | some _ => simp
        simp only
        rw [a0, a4, a6]
        exact ⟨_, rfl⟩
      | _ => simp [Valid] at hv

/-- An integer that is set is the one that is read back, here and by the peer. -/
theorem C36_set_integer {p : Params} {i : PId} {m n : Nat} (hi : integerDefault i = some m) :
    ∃ q, setInteger p i n = .ok q ∧ getInteger q i = .ok n ∧ ∀ j, j ≠ i → q j = p j := by
  unfold setInteger getInteger
  rw [hi]
  by_cases h : m = n
  · refine ⟨p.remove i, by simp [h], ?_, fun j hj => by simp [Params.remove, hj]⟩
    simp [Params.remove, h]
  · refine ⟨p.set i (.int n), by simp [h], ?_, fun j hj => by simp [Params.set, hj]⟩
    simp [Params.set]

example : integerDefault .maxAckDelay = some 25 := rfl

/-! ## 0-RTT -/

theorem ok0rtt_iff {p r : Params} : okFor0rtt p r = true ↔
    ∀ i v, r i = some v → skipped0rtt i = true ∨ ∃ w, p i = some w ∧ valueOk0rtt i w v = true := by
  unfold okFor0rtt
  rw [List.all_eq_true]
  constructor
  · intro h i v hr
    have := h i (mem_all i)
    rw [hr] at this
    simp only [Bool.or_eq_true] at this
    rcases this with h1 | h1
    · exact Or.inl h1
    · cases hp : p i with
      | none => rw [hp] at h1; cases h1
      | some w => rw [hp] at h1; exact Or.inr ⟨w, rfl, h1⟩
  · intro h i _
    cases hr : r i with
    | none => rfl
    | some v =>
      simp only [Bool.or_eq_true]
      rcases h i v hr with h1 | ⟨w, hw, h1⟩
      · exact Or.inl h1
      · rw [hw]; exact Or.inr h1

/-- When a server accepts 0-RTT with the parameters `p`, none of the limits that a client may have used
in 0-RTT, those it remembers as `r`, is reduced, except the limit on connection ids.

What is missing: that limit is not compared (`C36_0rtt_cid_limit_reduced`). -/
theorem C36_0rtt_partial {p r : Params} {i : PId} {a b : Nat} (h : okFor0rtt p r = true) (hi : i ∈ limits0rtt)
    (hi' : i ≠ .activeConnectionIdLimit) (ha : getInteger p i = .ok a) (hb : getInteger r i = .ok b) : b ≤ a := by
  have h := ok0rtt_iff.mp h i
  have hd : integerDefault i = some 0 ∧ skipped0rtt i = false ∧ i ≠ .minAckDelay := by
    cases i <;> simp [limits0rtt] at hi <;> simp [integerDefault, skipped0rtt] at hi' ⊢
  unfold getInteger at ha hb
  rw [hd.1] at ha hb
  simp only at ha hb
  cases hr : r i with
  | none => rw [hr] at hb; cases hb; omega
  | some v =>
    rcases h v hr with hs | ⟨w, hw, hok⟩
    · rw [hd.2.1] at hs; cases hs
    · rw [hr] at hb
      rw [hw] at ha
      cases v with
      | int y =>
        cases hb
        cases w with
        | int x =>
          cases ha
          simp only [valueOk0rtt, if_neg hd.2.2] at hok
          exact of_decide_eq_true hok
        | _ => cases ha
      | _ => cases hb

example : okFor0rtt (fun i => if i = .initialMaxData then some (.int 20) else none)
    (fun i => if i = .initialMaxData then some (.int 10) else none) = true := by decide +kernel

/-- Nor is a feature that was announced withdrawn. -/
theorem C36_0rtt_features {p r : Params} {i : PId} (h : okFor0rtt p r = true)
    (hi : i = .resetStreamAt ∨ i = .greaseQuicBit) (hr : r i = some .empty) : p i = some .empty := by
  rcases ok0rtt_iff.mp h i _ hr with hs | ⟨w, hw, hok⟩
  · rcases hi with rfl | rfl <;> cases hs
  · cases w <;> simp [valueOk0rtt] at hok
    exact hw

/-- 0-RTT is accepted although the limit on connection ids is smaller than the one that the client
remembers, which RFC 9000, section 7.4.1, does not allow. -/
theorem C36_0rtt_cid_limit_reduced : ∃ p r : Params, okFor0rtt p r = true ∧
    (∃ a b, getInteger p .activeConnectionIdLimit = .ok a ∧ getInteger r .activeConnectionIdLimit = .ok b ∧ a < b) ∧
    (∃ bytes, decodeParams .client bytes = .ok r) := by
  refine ⟨fun _ => none, fun i => if i = .activeConnectionIdLimit then some (.int 8) else none, by decide +kernel,
    ⟨2, 8, by decide +kernel, by decide +kernel, by decide⟩, ?_⟩
  obtain ⟨b, _, h⟩ := C36_round_trip (role := .client) (f := fun _ => true)
    (p := fun i => if i = .activeConnectionIdLimit then some (.int 8) else none) (by
      intro i v hv
      split at hv
      · rename_i hi
        cases hv
        rw [hi]
        exact ⟨⟨by decide, by decide⟩, trivial⟩
      · cases hv) (fun _ _ _ _ => rfl)
  exact ⟨b, by simpa using h⟩

/-- 0-RTT is accepted although packets may be no larger than 1200 bytes, and the client remembers no such
limit. -/
theorem C36_0rtt_packet_size_reduced : ∃ p r : Params, okFor0rtt p r = true ∧
    getInteger p .maxUdpPayloadSize = .ok 1200 ∧ getInteger r .maxUdpPayloadSize = .ok 65527 := by
  exact ⟨fun i => if i = .maxUdpPayloadSize then some (.int 1200) else none, fun _ => none, by decide +kernel,
    by decide +kernel, by decide +kernel⟩

end Neqo.Tp
