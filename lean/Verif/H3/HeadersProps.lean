import Verif.H3.Headers

/-! # C72: malformed header sections are refused -/
namespace Neqo.H3
open Neqo.Codec (Bytes)
open Spec (Pseudo defined value? NameOk ValueOk connectionFields Complete WellFormed)

/-- The name that goes with a state. -/
def Ps.name : Ps → Bytes
  | .status => nStatus
  | .method => nMethod
  | .scheme => nScheme
  | .authority => nAuthority
  | .path => nPath
  | .protocol => nProtocol
  | .regular => []

theorem colon_iff (h : Hd) : startsWithColon h.name = true ↔ Pseudo h := by
  simp [startsWithColon, Pseudo]

theorem name_pseudo {p : Ps} (hp : p ≠ .regular) {h : Hd} (hn : h.name = p.name) : Pseudo h := by
  unfold Pseudo
  rw [hn]
  cases p <;> first | rfl | exact absurd rfl hp

theorem name_inj {p q : Ps} (h : p.name = q.name) : p = q := by
  cases p <;> cases q <;> first | rfl | (exfalso; revert h; decide)

/-- `psOf` accepts exactly the defined names. -/
theorem psOf_ok {mt : MType} {name : Bytes} {p : Ps} :
    psOf mt name = .ok p ↔ p ≠ .regular ∧ p.name = name ∧ name ∈ defined mt := by
  constructor
  · intro h
    unfold psOf at h
    cases mt <;> simp only at h
    · split at h
      · cases h; rename_i hn; exact ⟨by simp, hn.symm, by simp [defined, hn]⟩
      · split at h
        · cases h; rename_i hn; exact ⟨by simp, hn.symm, by simp [defined, hn]⟩
        · split at h
          · cases h; rename_i hn; exact ⟨by simp, hn.symm, by simp [defined, hn]⟩
          · split at h
            · cases h; rename_i hn; exact ⟨by simp, hn.symm, by simp [defined, hn]⟩
            · split at h
              · cases h; rename_i hn; exact ⟨by simp, hn.symm, by simp [defined, hn]⟩
              · cases h
    · split at h
      · cases h; rename_i hn; exact ⟨by simp, hn.symm, by simp [defined, hn]⟩
      · cases h
  · rintro ⟨h1, rfl, h3⟩
    cases mt <;> cases p <;> first | rfl | exact absurd rfl h1 | (exfalso; revert h3; decide)

theorem psOf_error {mt : MType} {name : Bytes} {e : Err} (h : psOf mt name = .error e) :
    e = .invalidHeader ∧ name ∉ defined mt := by
  unfold psOf at h
  cases mt <;> simp only at h
  · (repeat' split at h) <;> first | (cases h; done) | skip
    cases h
    refine ⟨rfl, ?_⟩
    simp only [defined, List.mem_cons, List.not_mem_nil, or_false, not_or]
    refine ⟨by assumption, by assumption, by assumption, by assumption, by assumption⟩
  · split at h
    · cases h
    · cases h
      exact ⟨rfl, by simpa [defined] using (by assumption)⟩

/-- A field that may come after `pre`. -/
structure Ok (mt : MType) (pre : List Hd) (h : Hd) : Prop where
  order : Pseudo h → ∀ a ∈ pre, Pseudo a
  once : Pseudo h → ∀ a ∈ pre, a.name ≠ h.name
  known : Pseudo h → h.name ∈ defined mt
  name : NameOk h.name
  value : ValueOk h.value
  conn : h.name ∉ connectionFields ∧ (h.name = nTe → h.value = vTrailers)

/-- The rules for the fields one by one. -/
structure Fields (mt : MType) (hs : List Hd) : Prop where
  order : hs.Pairwise fun a b => Pseudo b → Pseudo a
  once : hs.Pairwise fun a b => Pseudo b → a.name ≠ b.name
  known : ∀ h ∈ hs, Pseudo h → h.name ∈ defined mt
  names : ∀ h ∈ hs, NameOk h.name
  values : ∀ h ∈ hs, ValueOk h.value
  conn : ∀ h ∈ hs, h.name ∉ connectionFields ∧ (h.name = nTe → h.value = vTrailers)

theorem fields_snoc (mt : MType) (pre : List Hd) (h : Hd) :
    Fields mt (pre ++ [h]) ↔ Fields mt pre ∧ Ok mt pre h := by
  constructor
  · intro f
    have h1 := List.pairwise_append.mp f.order
    have h2 := List.pairwise_append.mp f.once
    exact ⟨⟨h1.1, h2.1, fun x hx => f.known x (by simp [hx]), fun x hx => f.names x (by simp [hx]),
      fun x hx => f.values x (by simp [hx]), fun x hx => f.conn x (by simp [hx])⟩,
      ⟨fun hp a ha => h1.2.2 a ha h (by simp) hp, fun hp a ha => h2.2.2 a ha h (by simp) hp,
       f.known h (by simp), f.names h (by simp), f.values h (by simp), f.conn h (by simp)⟩⟩
  · rintro ⟨f, o⟩
    have hmem : ∀ {P : Hd → Prop}, (∀ x ∈ pre, P x) → P h → ∀ x ∈ pre ++ [h], P x := by
      intro P h1 h2 x hx
      rcases List.mem_append.mp hx with hx | hx
      · exact h1 x hx
      · rw [List.mem_singleton.mp hx]; exact h2
    refine ⟨List.pairwise_append.mpr ⟨f.order, by simp, ?_⟩, List.pairwise_append.mpr ⟨f.once, by simp, ?_⟩,
      hmem f.known o.known, hmem f.names o.name, hmem f.values o.value, hmem f.conn o.conn⟩
    · intro a ha b hb hp
      rw [List.mem_singleton.mp hb] at hp
      exact o.order hp a ha
    · intro a ha b hb hp
      rw [List.mem_singleton.mp hb] at hp ⊢
      exact o.once hp a ha

/-- What is kept track of after the fields `pre`. -/
structure Track (pre : List Hd) (s : Hv) : Prop where
  seen : ∀ p, p ≠ .regular → (p ∈ s.seen ↔ ∃ h ∈ pre, h.name = p.name)
  reg : .regular ∈ s.seen ↔ ∃ h ∈ pre, ¬ Pseudo h
  method : s.method = value? pre nMethod
  protocol : s.protocol = value? pre nProtocol
  scheme : s.scheme = value? pre nScheme

theorem value_snoc (pre : List Hd) (h : Hd) (n : Bytes) :
    value? (pre ++ [h]) n = match value? pre n with
      | some v => some v
      | none => if h.name = n then some h.value else none := by
  simp only [value?, List.find?_append]
  cases pre.find? (fun h => decide (h.name = n)) with
  | some x => rfl
  | none =>
    by_cases hn : h.name = n
    · simp [hn]
    · simp [hn]

theorem value_none {pre : List Hd} {n : Bytes} (h : ∀ a ∈ pre, a.name ≠ n) : value? pre n = none := by
  simp only [value?, Option.map_eq_none_iff, List.find?_eq_none]
  intro x hx
  simpa using h x hx

theorem value_isSome {pre : List Hd} {n : Bytes} : (value? pre n).isSome ↔ ∃ h ∈ pre, h.name = n := by
  simp only [value?, Option.isSome_map, List.find?_isSome, decide_eq_true_eq]

theorem nameOk_iff (h : Hd) (b : Bool) (hb : b = true ↔ Pseudo h) :
    ((if b then h.name.drop 1 else h.name).any badNameByte = false) ↔ NameOk h.name := by
  unfold NameOk
  have : (if b then h.name.drop 1 else h.name) = (if h.name.head? = some 0x3a then h.name.drop 1 else h.name) := by
    by_cases hp : Pseudo h
    · rw [if_pos (hb.mpr hp)]; exact (if_pos (c := h.name.head? = some 0x3a) hp).symm
    · rw [if_neg (fun hh => hp (hb.mp hh))]; exact (if_neg (c := h.name.head? = some 0x3a) hp).symm
  rw [this, List.any_eq_false]
  constructor
  · intro hh x hx
    have := hh x hx
    simp only [badNameByte, Bool.or_eq_true, Bool.and_eq_true, decide_eq_true_eq, not_or] at this
    exact ⟨this.1.1.1.1, this.1.1.1.2, this.1.1.2, this.1.2, this.2⟩
  · intro hh x hx
    have := hh x hx
    simp only [badNameByte, Bool.or_eq_true, Bool.and_eq_true, decide_eq_true_eq, not_or]
    exact ⟨⟨⟨⟨this.1, this.2.1⟩, this.2.2.1⟩, this.2.2.2.1⟩, this.2.2.2.2⟩

theorem valueOk_iff (v : Bytes) : v.any badValueByte = false ↔ ValueOk v := by
  unfold ValueOk
  rw [List.any_eq_false]
  constructor
  · intro hh x hx
    have := hh x hx
    simp only [badValueByte, Bool.or_eq_true, decide_eq_true_eq, not_or] at this
    exact ⟨this.1.1, this.1.2, this.2⟩
  · intro hh x hx
    have := hh x hx
    simp only [badValueByte, Bool.or_eq_true, decide_eq_true_eq, not_or]
    exact ⟨⟨this.1, this.2.1⟩, this.2.2⟩

/-- `trackPseudo` accepts exactly what may come here. -/
theorem track_ok {mt : MType} {pre : List Hd} {s : Hv} (ht : Track pre s) (h : Hd) :
    match trackPseudo h.name s.seen mt with
    | .error e => e = .invalidHeader ∧
        ¬ (Pseudo h → (∀ a ∈ pre, Pseudo a) ∧ (∀ a ∈ pre, a.name ≠ h.name) ∧ h.name ∈ defined mt)
    | .ok (seen, b) => (b = true ↔ Pseudo h) ∧
        (Pseudo h → (∀ a ∈ pre, Pseudo a) ∧ (∀ a ∈ pre, a.name ≠ h.name) ∧ h.name ∈ defined mt) ∧
        ∃ p, seen = p :: s.seen ∧ (Pseudo h → p ≠ .regular ∧ p.name = h.name) ∧ (¬ Pseudo h → p = .regular) := by
  unfold trackPseudo
  by_cases hp : Pseudo h
  · have hc := (colon_iff h).mpr hp
    rw [if_pos hc]
    by_cases hr : Ps.regular ∈ s.seen
    · rw [if_pos hr]
      obtain ⟨x, hx, hx'⟩ := ht.reg.mp hr
      exact ⟨rfl, fun hh => hx' ((hh hp).1 x hx)⟩
    · rw [if_neg hr]
      cases hq : psOf mt h.name with
      | error e =>
        obtain ⟨h1, h2⟩ := psOf_error hq
        exact ⟨h1, fun hh => h2 (hh hp).2.2⟩
      | ok p =>
        obtain ⟨h1, h2, h3⟩ := psOf_ok.mp hq
        simp only [bind, Except.bind]
        by_cases hs : p ∈ s.seen
        · rw [if_neg (by simp [hs, h1])]
          obtain ⟨x, hx, hx'⟩ := (ht.seen p h1).mp hs
          exact ⟨rfl, fun hh => (hh hp).2.1 x hx (by rw [hx', h2])⟩
        · rw [if_pos (Or.inl hs)]
          refine ⟨by simp [h1, hp], fun _ => ⟨?_, ?_, h3⟩, p, rfl, fun _ => ⟨h1, h2⟩, fun hh => absurd hp hh⟩
          · intro a ha
            apply Classical.byContradiction
            intro hh
            exact hr (ht.reg.mpr ⟨a, ha, hh⟩)
          · intro a ha hh
            exact hs ((ht.seen p h1).mpr ⟨a, ha, by rw [hh, h2]⟩)
  · have hc : ¬ startsWithColon h.name = true := fun hh => hp ((colon_iff h).mp hh)
    rw [if_neg hc]
    simp only [bind, Except.bind, pure, Except.pure, or_true, if_true]
    exact ⟨by simp [hp], fun hh => absurd hh hp, .regular, rfl, fun hh => absurd hh hp, fun _ => rfl⟩

theorem field_ok {mt : MType} {pre : List Hd} {s : Hv} (ht : Track pre s) (h : Hd) :
    match s.field mt h with
    | .error e => e = .invalidHeader ∧ ¬ Ok mt pre h
    | .ok s' => Ok mt pre h ∧ Track (pre ++ [h]) s' := by
  have htr := track_ok (mt := mt) ht h
  unfold Hv.field
  cases hx : trackPseudo h.name s.seen mt with
  | error e =>
    rw [hx] at htr
    exact ⟨htr.1, fun o => htr.2 fun hp => ⟨o.order hp, o.once hp, o.known hp⟩⟩
  | ok y =>
    obtain ⟨seen, b⟩ := y
    rw [hx] at htr
    obtain ⟨hb, hpre, p, rfl, hp1, hp2⟩ := htr
    simp only [bind, Except.bind]
    by_cases hn : (if b = true then h.name.drop 1 else h.name).any badNameByte = true
    · rw [if_pos hn]
      refine ⟨rfl, fun o => ?_⟩
      have := (nameOk_iff h b hb).mpr o.name
      rw [this] at hn; cases hn
    · rw [if_neg hn]
      have hname := (nameOk_iff h b hb).mp (by simpa using hn)
      by_cases hv : h.value.any badValueByte = true
      · rw [if_pos hv]
        refine ⟨rfl, fun o => ?_⟩
        have := (valueOk_iff h.value).mpr o.value
        rw [this] at hv; cases hv
      · rw [if_neg hv]
        have hvalue := (valueOk_iff h.value).mp (by simpa using hv)
        by_cases hcn : h.name ∈ connectionFields
        · have : (decide (h.name = nConnection) || decide (h.name = nKeepAlive) ||
              decide (h.name = nProxyConnection) || decide (h.name = nTransferEncoding) ||
              decide (h.name = nUpgrade)) = true := by
            simp only [connectionFields, List.mem_cons, List.not_mem_nil, or_false] at hcn
            simp only [Bool.or_eq_true, decide_eq_true_eq, or_assoc]
            exact hcn
          rw [if_pos this]
          exact ⟨rfl, fun o => o.conn.1 hcn⟩
        · have : ¬ (decide (h.name = nConnection) || decide (h.name = nKeepAlive) ||
              decide (h.name = nProxyConnection) || decide (h.name = nTransferEncoding) ||
              decide (h.name = nUpgrade)) = true := by
            intro hh
            apply hcn
            simp only [Bool.or_eq_true, decide_eq_true_eq, or_assoc] at hh
            simp only [connectionFields, List.mem_cons, List.not_mem_nil, or_false]
            exact hh
          rw [if_neg this]
          by_cases hte : (decide (h.name = nTe) && decide (h.value ≠ vTrailers)) = true
          · rw [if_pos hte]
            simp only [Bool.and_eq_true, decide_eq_true_eq] at hte
            exact ⟨rfl, fun o => hte.2 (o.conn.2 hte.1)⟩
          · rw [if_neg hte]
            have hok : Ok mt pre h := by
              refine ⟨fun hp => (hpre hp).1, fun hp => (hpre hp).2.1, fun hp => (hpre hp).2.2, hname, hvalue,
                hcn, fun h1 => ?_⟩
              apply Classical.byContradiction
              intro h2
              exact hte (by simp [h1, h2])
            refine ⟨hok, ?_⟩
            have hseen : ∀ q, q ≠ .regular → (q ∈ p :: s.seen ↔ ∃ x ∈ pre ++ [h], x.name = q.name) := by
              intro q hq
              rw [List.mem_cons, ht.seen q hq]
              constructor
              · rintro (rfl | ⟨x, hx, hx'⟩)
                · refine ⟨h, by simp, ?_⟩
                  by_cases hp : Pseudo h
                  · exact (hp1 hp).2.symm
                  · exact absurd (hp2 hp) hq
                · exact ⟨x, by simp [hx], hx'⟩
              · rintro ⟨x, hx, hx'⟩
                rcases List.mem_append.mp hx with hx | hx
                · exact Or.inr ⟨x, hx, hx'⟩
                · left
                  rw [List.mem_singleton.mp hx] at hx'
                  have hp := name_pseudo hq hx'
                  exact name_inj (by rw [(hp1 hp).2, hx'])
            have hreg : .regular ∈ p :: s.seen ↔ ∃ x ∈ pre ++ [h], ¬ Pseudo x := by
              rw [List.mem_cons, ht.reg]
              constructor
              · rintro (h1 | ⟨x, hx, hx'⟩)
                · refine ⟨h, by simp, fun hp => (hp1 hp).1 h1.symm⟩
                · exact ⟨x, by simp [hx], hx'⟩
              · rintro ⟨x, hx, hx'⟩
                rcases List.mem_append.mp hx with hx | hx
                · exact Or.inr ⟨x, hx, hx'⟩
                · left
                  rw [List.mem_singleton.mp hx] at hx'
                  exact (hp2 hx').symm
            have hval : ∀ n, n.head? = some 0x3a → value? (pre ++ [h]) n =
                if h.name = n then some h.value else value? pre n := by
              intro n hc
              rw [value_snoc]
              by_cases hn : h.name = n
              · have hp : Pseudo h := by unfold Pseudo; rw [hn]; exact hc
                rw [value_none (fun a ha => by rw [← hn]; exact hok.once hp a ha)]
              · cases value? pre n <;> simp [hn]
            have hvm := hval nMethod rfl
            have hvp := hval nProtocol rfl
            have hvs := hval nScheme rfl
            have d1 : nProtocol ≠ nMethod := by decide
            have d2 : nScheme ≠ nMethod := by decide
            have d3 : nScheme ≠ nProtocol := by decide
            cases b with
            | false =>
              have hp : ¬ Pseudo h := fun hh => by have := hb.mpr hh; cases this
              have hne : ∀ n, n.head? = some 0x3a → h.name ≠ n := by
                intro n hc hn; exact hp (by unfold Pseudo; rw [hn]; exact hc)
              rw [if_neg (hne _ rfl)] at hvm hvp hvs
              exact ⟨hseen, hreg, by rw [hvm]; exact ht.method, by rw [hvp]; exact ht.protocol,
                by rw [hvs]; exact ht.scheme⟩
            | true =>
              simp only [if_true]
              by_cases h1 : h.name = nMethod
              · rw [if_pos h1]
                rw [if_pos h1] at hvm
                rw [if_neg (by rw [h1]; exact d1.symm)] at hvp
                rw [if_neg (by rw [h1]; exact d2.symm)] at hvs
                exact ⟨hseen, hreg, hvm.symm, by rw [hvp]; exact ht.protocol, by rw [hvs]; exact ht.scheme⟩
              · rw [if_neg h1]
                rw [if_neg h1] at hvm
                by_cases h2 : h.name = nProtocol
                · rw [if_pos h2]
                  rw [if_pos h2] at hvp
                  rw [if_neg (by rw [h2]; exact d3.symm)] at hvs
                  exact ⟨hseen, hreg, by rw [hvm]; exact ht.method, hvp.symm, by rw [hvs]; exact ht.scheme⟩
                · rw [if_neg h2]
                  rw [if_neg h2] at hvp
                  by_cases h3 : h.name = nScheme
                  · rw [if_pos h3]
                    rw [if_pos h3] at hvs
                    exact ⟨hseen, hreg, by rw [hvm]; exact ht.method, by rw [hvp]; exact ht.protocol, hvs.symm⟩
                  · rw [if_neg h3]
                    rw [if_neg h3] at hvs
                    exact ⟨hseen, hreg, by rw [hvm]; exact ht.method, by rw [hvp]; exact ht.protocol,
                      by rw [hvs]; exact ht.scheme⟩

theorem fields_prefix {mt : MType} {pre rest : List Hd} (h : Fields mt (pre ++ rest)) : Fields mt pre :=
  ⟨(List.pairwise_append.mp h.order).1, (List.pairwise_append.mp h.once).1,
    fun x hx => h.known x (by simp [hx]), fun x hx => h.names x (by simp [hx]),
    fun x hx => h.values x (by simp [hx]), fun x hx => h.conn x (by simp [hx])⟩

theorem fold_ok {mt : MType} : ∀ (hs pre : List Hd) (s : Hv), Fields mt pre → Track pre s →
    match hs.foldlM (Hv.field mt) s with
    | .error e => e = .invalidHeader ∧ ¬ Fields mt (pre ++ hs)
    | .ok s' => Fields mt (pre ++ hs) ∧ Track (pre ++ hs) s' := by
  intro hs
  induction hs with
  | nil => intro pre s h1 h2; simp only [List.foldlM_nil, List.append_nil]; exact ⟨h1, h2⟩
  | cons h hs ih =>
    intro pre s h1 h2
    rw [List.foldlM_cons]
    have hf := field_ok (mt := mt) h2 h
    have happ : pre ++ h :: hs = (pre ++ [h]) ++ hs := by simp
    cases hx : s.field mt h with
    | error e =>
      rw [hx] at hf
      refine ⟨hf.1, fun hh => hf.2 ?_⟩
      rw [happ] at hh
      exact ((fields_snoc mt pre h).mp (fields_prefix hh)).2
    | ok s' =>
      rw [hx] at hf
      rw [happ]
      exact ih (pre ++ [h]) s' ((fields_snoc mt pre h).mpr ⟨h1, hf.1⟩) hf.2

theorem finish_ok {mt : MType} {hs : List Hd} {s : Hv} (ht : Track hs s) :
    match s.finish mt with
    | .error e => e = .invalidHeader ∧ ¬ Complete hs mt
    | .ok () => Complete hs mt := by
  have hseen : ∀ p, p ≠ .regular → (p ∈ s.seen ↔ (value? hs p.name).isSome) := by
    intro p hp; rw [ht.seen p hp, value_isSome]
  have s1 := hseen .status (by simp)
  have s2 := hseen .method (by simp)
  have s3 := hseen .scheme (by simp)
  have s4 := hseen .authority (by simp)
  have s5 := hseen .path (by simp)
  have s6 := hseen .protocol (by simp)
  simp only [Ps.name] at s1 s2 s3 s4 s5 s6
  unfold Hv.finish
  cases mt with
  | response =>
    simp only [bind, Except.bind, pure, Except.pure, List.all_cons, List.all_nil, Bool.and_true,
      reduceCtorEq, decide_false, Bool.false_and, Bool.false_eq_true, if_false, s1, Complete]
    by_cases h : (value? hs nStatus).isSome = true
    · simp [h]
    · simp [h]
  | request =>
    simp only [bind, Except.bind, pure, Except.pure, decide_true, Bool.true_and, Complete, ht.method,
      ht.protocol, ht.scheme]
    by_cases hm : value? hs nMethod = some vConnect
    · rw [if_pos hm, if_pos hm]
      have hms : (value? hs nMethod).isSome := by rw [hm]; rfl
      cases hp : value? hs nProtocol with
      | none =>
        simp only [hm, ne_eq, not_true_eq_false, decide_false, Bool.and_false, Bool.false_eq_true, if_false,
          List.all_cons, List.all_nil, Bool.and_true, s2, s4, Option.isSome_some, decide_true, Bool.true_and,
          Option.isSome_none, false_implies, true_and, and_true, reduceCtorEq]
        by_cases h : (value? hs nAuthority).isSome = true
        · simp [h]
        · simp [h]
      | some p =>
        simp only
        by_cases hw : (decide (p = vWebtransport) && decide (value? hs nScheme ≠ some vHttps)) = true
        · rw [if_pos hw]
          simp only [Bool.and_eq_true, decide_eq_true_eq] at hw
          refine ⟨rfl, fun hh => hw.2 (hh.2.2.2 (by rw [hw.1]))⟩
        · rw [if_neg hw]
          have hw' : p = vWebtransport → value? hs nScheme = some vHttps := by
            intro h1
            apply Classical.byContradiction
            intro h2
            exact hw (by simp [h1, h2])
          simp only [hm, ne_eq, not_true_eq_false, decide_false, Bool.and_false, Bool.false_eq_true, if_false,
            List.all_cons, List.all_nil, Bool.and_true, s2, s3, s4, s5, Option.isSome_some, decide_true,
            Bool.true_and, true_implies, true_and]
          by_cases h1 : (value? hs nAuthority).isSome = true <;>
            by_cases h2 : (value? hs nScheme).isSome = true <;>
            by_cases h3 : (value? hs nPath).isSome = true <;> simp [h1, h2, h3]
          exact hw'
    · rw [if_neg hm, if_neg hm]
      simp only [s6, hm, ne_eq, not_false_eq_true, decide_true, Bool.and_true, List.all_cons, List.all_nil,
        s2, s3, s5]
      cases hp : value? hs nProtocol with
      | some p => simp
      | none =>
        by_cases h1 : (value? hs nMethod).isSome = true <;>
          by_cases h2 : (value? hs nScheme).isSome = true <;>
          by_cases h3 : (value? hs nPath).isSome = true <;> simp [h1, h2, h3]

theorem wf_iff {mt : MType} {hs : List Hd} : WellFormed mt hs ↔ Fields mt hs ∧ Complete hs mt :=
  ⟨fun h => ⟨⟨h.order, h.once, h.known, h.names, h.values, h.conn⟩, h.complete⟩,
   fun h => ⟨h.1.order, h.1.once, h.1.known, h.1.names, h.1.values, h.1.conn, h.2⟩⟩

theorem headersValid_iff (mt : MType) (hs : List Hd) :
    match headersValid mt hs with
    | .error e => e = .invalidHeader ∧ ¬ WellFormed mt hs
    | .ok () => WellFormed mt hs := by
  have hf := fold_ok (mt := mt) hs [] {} ⟨.nil, .nil, by simp, by simp, by simp, by simp⟩
    ⟨by simp, by simp, rfl, rfl, rfl⟩
  rw [List.nil_append] at hf
  unfold headersValid
  cases hx : hs.foldlM (Hv.field mt) {} with
  | error e =>
    rw [hx] at hf
    exact ⟨hf.1, fun h => hf.2 (wf_iff.mp h).1⟩
  | ok s =>
    rw [hx] at hf
    have hfin := finish_ok (mt := mt) hf.2
    simp only [bind, Except.bind]
    cases hy : s.finish mt with
    | error e =>
      rw [hy] at hfin
      exact ⟨hfin.1, fun h => hfin.2 (wf_iff.mp h).2⟩
    | ok u =>
      rw [hy] at hfin
      exact wf_iff.mpr ⟨hf.1, hfin⟩

/-- C72: a header section is accepted exactly when it keeps the rules. -/
theorem C72_accepted (mt : MType) (hs : List Hd) : headersValid mt hs = .ok () ↔ WellFormed mt hs := by
  have := headersValid_iff mt hs
  cases hx : headersValid mt hs with
  | error e => rw [hx] at this; simp [this.2]
  | ok u => rw [hx] at this; simp [this]

/-- C72: and otherwise it is refused as invalid. -/
theorem C72_refused (mt : MType) (hs : List Hd) (h : ¬ WellFormed mt hs) :
    headersValid mt hs = .error .invalidHeader := by
  have := headersValid_iff mt hs
  cases hx : headersValid mt hs with
  | error e => rw [hx] at this; rw [this.1]
  | ok u => rw [hx] at this; exact absurd this h

/-- The status of a response that keeps the rules comes first. -/
theorem status_first {hs : List Hd} (h : WellFormed .response hs) :
    ∃ s rest, hs = s :: rest ∧ s.name = nStatus ∧ value? hs nStatus = some s.value := by
  obtain ⟨x, hx, hn⟩ := value_isSome.mp h.complete
  have hpx : Pseudo x := by unfold Pseudo; rw [hn]; rfl
  cases hs with
  | nil => cases hx
  | cons s rest =>
    have hs : s.name = nStatus := by
      rcases List.mem_cons.mp hx with rfl | hx'
      · exact hn
      · have hp : Pseudo s := (List.pairwise_cons.mp h.order).1 x hx' hpx
        have := h.known s (by simp) hp
        simpa [defined] using this
    exact ⟨s, rest, rfl, hs, by simp [value?, hs]⟩

/-- C72: a response is taken to be an interim one exactly when its status is between
100 and 199; a status of 101, or one that is not a number, is refused. -/
theorem C72_interim {hs : List Hd} (h : WellFormed .response hs) :
    ∃ v, value? hs nStatus = some v ∧ isInterim hs =
      match parseU16 v with
      | none => .error .invalidHeader
      | some c => if c = 101 then .error .invalidHeader else .ok (100 ≤ c && c < 200) := by
  obtain ⟨s, rest, rfl, h1, h2⟩ := status_first h
  refine ⟨s.value, h2, ?_⟩
  simp only [isInterim, List.take_succ_cons, List.take_zero, List.find?_cons, h1, decide_true]
  cases parseU16 s.value <;> rfl

/-- C72: what is passed on of a request that is accepted is what was received. -/
theorem C72_request {hs hs' : List Hd} {k : HKind} (h : checkHeaders .request hs = .ok (k, hs')) :
    hs' = hs ∧ WellFormed .request hs ∧
      (k = .connect ↔ value? hs nMethod = some vConnect ∧ (value? hs nProtocol).isSome) ∧ k ≠ .interim := by
  unfold checkHeaders at h
  simp only [bind, Except.bind, pure, Except.pure] at h
  cases hv : headersValid .request hs with
  | error e => rw [hv] at h; cases h
  | ok u =>
    rw [hv] at h
    have hw := (C72_accepted .request hs).mp hv
    simp only [reduceCtorEq, if_false, decide_true, Bool.true_and, Bool.false_eq_true] at h
    have e1 : hs.any (fun h => decide (h.name = nMethod) && decide (h.value = vConnect)) = true ↔
        value? hs nMethod = some vConnect := by
      constructor
      · intro ha
        obtain ⟨x, hx, hx'⟩ := List.any_eq_true.mp ha
        simp only [Bool.and_eq_true, decide_eq_true_eq] at hx'
        have hp : Pseudo x := by unfold Pseudo; rw [hx'.1]; rfl
        have hsome : (value? hs nMethod).isSome := value_isSome.mpr ⟨x, hx, hx'.1⟩
        obtain ⟨y, hy⟩ := Option.isSome_iff_exists.mp hsome
        simp only [value?, Option.map_eq_some_iff] at hy
        obtain ⟨z, hz, rfl⟩ := hy
        have hzm := List.mem_of_find?_eq_some hz
        have hzn : z.name = nMethod := by simpa using List.find?_some hz
        have : z = x := by
          apply Classical.byContradiction
          intro hne
          have hpz : Pseudo z := by unfold Pseudo; rw [hzn]; rfl
          obtain ⟨l1, l2, e⟩ := List.append_of_mem hx
          have ho := hw.once
          rw [e] at ho hzm
          have hpa := List.pairwise_append.mp ho
          rcases List.mem_append.mp hzm with hm | hm
          · exact hpa.2.2 z hm x (by simp) hp (hzn.trans hx'.1.symm)
          · rcases List.mem_cons.mp hm with h1 | hm
            · exact hne h1
            · exact (List.pairwise_cons.mp hpa.2.1).1 z hm hpz (hx'.1.trans hzn.symm)
        simp only [value?, hz, Option.map_some, this, hx'.2]
      · intro ha
        simp only [value?, Option.map_eq_some_iff] at ha
        obtain ⟨z, hz, hz'⟩ := ha
        apply List.any_eq_true.mpr
        exact ⟨z, List.mem_of_find?_eq_some hz, by
          have : z.name = nMethod := by simpa using List.find?_some hz
          simp [this, hz']⟩
    have e2 : hs.any (fun h => decide (h.name = nProtocol)) = true ↔ (value? hs nProtocol).isSome := by
      rw [value_isSome, List.any_eq_true]; simp
    by_cases hc : (hs.any (fun h => decide (h.name = nMethod) && decide (h.value = vConnect)) &&
        hs.any (fun h => decide (h.name = nProtocol))) = true
    · rw [if_pos hc] at h
      cases h
      rw [Bool.and_eq_true, e1, e2] at hc
      exact ⟨rfl, hw, by simp [hc], by simp⟩
    · rw [if_neg hc] at h
      cases h
      rw [Bool.and_eq_true, e1, e2] at hc
      exact ⟨rfl, hw, by simpa using hc, by simp⟩

/-- C72: what is passed on of a response that is accepted is what was received,
without `host` and `te`. -/
theorem C72_response {hs hs' : List Hd} {k : HKind} (h : checkHeaders .response hs = .ok (k, hs')) :
    hs' = hs.filter (fun x => x.name ≠ nHost && x.name ≠ nTe) ∧ WellFormed .response hs ∧ k ≠ .connect ∧
      ∃ v c, value? hs nStatus = some v ∧ parseU16 v = some c ∧ c ≠ 101 ∧
        (k = .interim ↔ 100 ≤ c ∧ c < 200) := by
  unfold checkHeaders at h
  simp only [bind, Except.bind, pure, Except.pure] at h
  cases hi : isInterim hs with
  | error e => rw [hi] at h; cases h
  | ok i =>
    rw [hi] at h
    simp only at h
    cases hv : headersValid .response hs with
    | error e => rw [hv] at h; cases h
    | ok u =>
      rw [hv] at h
      have hw := (C72_accepted .response hs).mp hv
      simp only [if_true, reduceCtorEq, decide_false, Bool.false_and, Bool.false_eq_true, if_false,
        Except.ok.injEq, Prod.mk.injEq] at h
      obtain ⟨hk, rfl⟩ := h
      obtain ⟨v, h1, h2⟩ := C72_interim hw
      rw [hi] at h2
      refine ⟨?_, hw, ?_, v, ?_⟩
      · apply List.filter_congr
        intro x hx
        have := (hw.conn x hx).1
        simp only [connectionFields, List.mem_cons, List.not_mem_nil, or_false, not_or] at this
        simp [Hd.allowedForResponse, this]
      · rw [← hk]; split <;> simp
      · cases hp : parseU16 v with
        | none => rw [hp] at h2; cases h2
        | some c =>
          rw [hp] at h2
          simp only at h2
          split at h2
          · cases h2
          · rename_i hne
            refine ⟨c, h1, rfl, hne, ?_⟩
            cases h2
            rw [← hk]
            by_cases hc : 100 ≤ c ∧ c < 200
            · simp [hc]
            · have : (decide (100 ≤ c) && decide (c < 200)) = false := by
                rw [Bool.and_eq_false_iff]
                simp only [decide_eq_false_iff_not]
                omega
              rw [this]
              simp [hc]

/-- C72: trailers are accepted exactly without pseudo-header fields. -/
theorem C72_trailers (hs : List Hd) : trailersValid hs = .ok () ↔ ∀ h ∈ hs, ¬ Pseudo h := by
  unfold trailersValid
  by_cases h : hs.any (fun h => startsWithColon h.name) = true
  · rw [if_pos h]
    obtain ⟨x, hx, hx'⟩ := List.any_eq_true.mp h
    simp only [reduceCtorEq, false_iff]
    exact fun hh => hh x hx ((colon_iff x).mp hx')
  · rw [if_neg h]
    simp only [true_iff]
    exact fun x hx hp => h (List.any_eq_true.mpr ⟨x, hx, (colon_iff x).mpr hp⟩)

/-! ## Examples -/

/-- `GET https://x/`, with `te: trailers`. -/
def exRequest : List Hd :=
  [⟨nMethod, [0x47, 0x45, 0x54]⟩, ⟨nScheme, vHttps⟩, ⟨nAuthority, [0x78]⟩, ⟨nPath, [0x2f]⟩, ⟨nTe, vTrailers⟩]

example : headersValid .request exRequest = .ok () := by decide +kernel

/-- Twice the same pseudo-header field, one after the others, and a line feed in a
value. -/
example : headersValid .request (exRequest ++ [⟨nPath, [0x2f]⟩]) = .error .invalidHeader ∧
    headersValid .request (⟨nPath, [0x2f]⟩ :: exRequest) = .error .invalidHeader ∧
    headersValid .response [⟨nStatus, [0x32, 0x0a]⟩] = .error .invalidHeader := by decide +kernel

example : checkHeaders .response [⟨nStatus, [0x31, 0x30, 0x33]⟩, ⟨nHost, [0x78]⟩] =
    .ok (.interim, [⟨nStatus, [0x31, 0x30, 0x33]⟩]) := by decide +kernel

/-- C72, what does not hold: RFC 9114 §4.4 says that `:scheme` and `:path` must be
omitted from a CONNECT request; with them it is accepted. -/
theorem C72_connect_with_path_accepted :
    headersValid .request [⟨nMethod, vConnect⟩, ⟨nScheme, vHttps⟩, ⟨nAuthority, [0x78]⟩, ⟨nPath, [0x2f]⟩] =
      .ok () := by decide +kernel

/-- C72, what does not hold: RFC 9110 §15 says that a status has three digits; `+200`
and `7` are accepted. -/
theorem C72_odd_status_accepted :
    checkHeaders .response [⟨nStatus, [0x2b, 0x32, 0x30, 0x30]⟩] =
      .ok (.final, [⟨nStatus, [0x2b, 0x32, 0x30, 0x30]⟩]) ∧
    checkHeaders .response [⟨nStatus, [0x37]⟩] = .ok (.final, [⟨nStatus, [0x37]⟩]) := by decide +kernel

/-- C72, what does not hold: RFC 9114 §10.3 says that a name with a character that is
not allowed in one (RFC 9110 §5.1) must be refused; an empty name and one with a space
are accepted. -/
theorem C72_odd_name_accepted :
    headersValid .request (exRequest ++ [⟨[], [0x78]⟩, ⟨[0x61, 0x20, 0x62], [0x78]⟩]) = .ok () := by
  decide +kernel

end Neqo.H3
