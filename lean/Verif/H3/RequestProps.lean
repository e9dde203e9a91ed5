import Verif.H3.Request

namespace Neqo.H3
open Neqo.Codec
open Spec (Pseudo defined value? NameOk ValueOk connectionFields Complete WellFormed FieldOk)

/-- Fields that begin a request: pseudo-header fields, different ones, with good values. -/
structure Front (pre : List Hd) : Prop where
  pseudo : ∀ h ∈ pre, Pseudo h
  once : pre.Pairwise fun a b => a.name ≠ b.name
  known : ∀ h ∈ pre, h.name ∈ defined .request

theorem defined_nameOk {n : Bytes} (h : n ∈ defined .request) : NameOk n := by
  simp only [defined, List.mem_cons, List.not_mem_nil, or_false] at h
  rcases h with rfl | rfl | rfl | rfl | rfl <;> (unfold NameOk; decide)

theorem defined_conn {n : Bytes} (h : n ∈ defined .request) : n ∉ connectionFields ∧ n ≠ nTe := by
  simp only [defined, List.mem_cons, List.not_mem_nil, or_false] at h
  rcases h with rfl | rfl | rfl | rfl | rfl <;> decide

theorem defined_pseudo {h : Hd} (hn : h.name ∈ defined .request) : Pseudo h := by
  simp only [defined, List.mem_cons, List.not_mem_nil, or_false] at hn
  unfold Pseudo
  rcases hn with hn | hn | hn | hn | hn <;> rw [hn] <;> decide

theorem front_of_names {pre : List Hd} (h1 : (pre.map Hd.name).Nodup)
    (h2 : ∀ n ∈ pre.map Hd.name, n ∈ defined .request) : Front pre :=
  ⟨fun h hm => defined_pseudo (h2 _ (List.mem_map_of_mem hm)), List.pairwise_map.mp h1,
    fun _ hm => h2 _ (List.mem_map_of_mem hm)⟩

theorem front_wellFormed {pre hs : List Hd} (hf : Front pre) (hv : ∀ h ∈ pre, ValueOk h.value)
    (hh : ∀ h ∈ hs, FieldOk h) (hc : Complete (pre ++ hs) .request) : WellFormed .request (pre ++ hs) := by
  refine ⟨List.pairwise_append.mpr ⟨?_, ?_, ?_⟩, List.pairwise_append.mpr ⟨?_, ?_, ?_⟩, ?_, ?_, ?_, ?_, hc⟩
  · exact List.Pairwise.imp_of_mem (fun ha _ _ _ => hf.pseudo _ ha) hf.once
  · have : hs.Pairwise fun _ _ => True := List.pairwise_of_forall (fun _ _ => trivial)
    exact List.Pairwise.imp_of_mem (fun _ hb _ hp => absurd hp (hh _ hb).plain) this
  · exact fun a ha b hb hp => absurd hp (hh b hb).plain
  · exact List.Pairwise.imp_of_mem (fun _ _ h _ => h) hf.once
  · have : hs.Pairwise fun _ _ => True := List.pairwise_of_forall (fun _ _ => trivial)
    exact List.Pairwise.imp_of_mem (fun _ hb _ hp => absurd hp (hh _ hb).plain) this
  · exact fun a ha b hb hp => absurd hp (hh b hb).plain
  · intro h hm hp
    rcases List.mem_append.mp hm with hm | hm
    · exact hf.known h hm
    · exact absurd hp (hh h hm).plain
  · intro h hm
    rcases List.mem_append.mp hm with hm | hm
    · exact defined_nameOk (hf.known h hm)
    · exact (hh h hm).name
  · intro h hm
    rcases List.mem_append.mp hm with hm | hm
    · exact hv h hm
    · exact (hh h hm).value
  · intro h hm
    rcases List.mem_append.mp hm with hm | hm
    · have := defined_conn (hf.known h hm)
      exact ⟨this.1, fun e => absurd e this.2⟩
    · exact (hh h hm).conn

theorem wellFormed_parts {pre hs : List Hd} (hw : WellFormed .request (pre ++ hs)) :
    (∀ h ∈ pre, ValueOk h.value) ∧
    (∀ h ∈ hs, (Pseudo h → h.name ∈ defined .request ∧ ∀ a ∈ pre, a.name ≠ h.name) ∧ NameOk h.name ∧
      ValueOk h.value ∧ h.name ∉ connectionFields ∧ (h.name = nTe → h.value = vTrailers)) := by
  refine ⟨fun h hm => hw.values h (by simp [hm]), fun h hm => ⟨fun hp => ⟨hw.known h (by simp [hm]) hp, ?_⟩,
    hw.names h (by simp [hm]), hw.values h (by simp [hm]), hw.conn h (by simp [hm])⟩⟩
  exact fun a ha => (List.pairwise_append.mp hw.once).2.2 a ha h hm hp

theorem value_append_left {pre hs : List Hd} {n v : Bytes} (h : value? pre n = some v) :
    value? (pre ++ hs) n = some v := by
  simp only [value?, List.find?_append] at h ⊢
  cases hf : pre.find? (fun h => decide (h.name = n)) with
  | none => rw [hf] at h; cases h
  | some x => rw [hf] at h; exact h

theorem value_absent {hs : List Hd} {n : Bytes} (h : ∀ a ∈ hs, a.name ≠ n) : value? hs n = none := by
  simp only [value?, Option.map_eq_none_iff, List.find?_eq_none, decide_eq_true_eq]
  exact h

theorem fieldOk_not_defined {hs : List Hd} (hh : ∀ h ∈ hs, FieldOk h) {n : Bytes} (hn : n ∈ defined .request) :
    ∀ a ∈ hs, a.name ≠ n := by
  intro a ha e
  exact (hh a ha).plain (defined_pseudo (by rw [e]; exact hn))

theorem value_append_right {pre hs : List Hd} {n : Bytes} (h : ∀ a ∈ pre, a.name ≠ n) :
    value? (pre ++ hs) n = value? hs n := by
  simp only [value?, List.find?_append]
  rw [List.find?_eq_none.mpr (fun a ha => by simpa using h a ha)]
  rfl

theorem value_of_mem {hs : List Hd} {h : Hd} (hm : h ∈ hs) : value? hs h.name ≠ none := by
  intro hc
  simp only [value?, Option.map_eq_none_iff, List.find?_eq_none, decide_eq_true_eq] at hc
  exact hc h hm rfl

/-- C110: `fetch` refuses the method CONNECT, and only that. -/
theorem C110_fetch_refuses_connect (method scheme authority path : Bytes) (hs : List Hd) :
    fetchFields method scheme authority path hs = none ↔ method = vConnect := by
  unfold fetchFields RequestDesc.create
  by_cases h : method = vConnect
  · simp [h]
  · simp [h]

/-- C110: a request made with `fetch` is accepted by a server exactly if method, target and
the fields of the application keep the rules.  (The client does not check any of it.) -/
theorem C110_fetch_accepted_iff {method scheme authority path : Bytes} {hs fields : List Hd}
    (h : fetchFields method scheme authority path hs = some fields) :
    headersValid .request fields = .ok () ↔
      (∀ v ∈ [method, scheme, authority, path], ValueOk v) ∧ ∀ f ∈ hs, FieldOk f := by
  unfold fetchFields RequestDesc.create at h
  by_cases hm : method = vConnect
  · rw [if_pos hm] at h; cases h
  · rw [if_neg hm] at h
    simp only [if_neg hm, Option.some.injEq] at h
    subst h
    rw [C72_accepted]
    have hfront : Front [⟨nMethod, method⟩, ⟨nScheme, scheme⟩, ⟨nAuthority, authority⟩, ⟨nPath, path⟩] := by
      exact front_of_names (show List.Nodup [nMethod, nScheme, nAuthority, nPath] by decide)
        (show ∀ n ∈ [nMethod, nScheme, nAuthority, nPath], n ∈ defined .request by decide)
    have hmeth : ∀ l, value? ([⟨nMethod, method⟩, ⟨nScheme, scheme⟩, ⟨nAuthority, authority⟩, ⟨nPath, path⟩] ++ l)
        nMethod = some method := fun l => value_append_left (by simp [value?])
    have hsch : ∀ l, value? ([⟨nMethod, method⟩, ⟨nScheme, scheme⟩, ⟨nAuthority, authority⟩, ⟨nPath, path⟩] ++ l)
        nScheme = some scheme := fun l => value_append_left (by simp [value?, nMethod, nScheme])
    have hpath : ∀ l, value? ([⟨nMethod, method⟩, ⟨nScheme, scheme⟩, ⟨nAuthority, authority⟩, ⟨nPath, path⟩] ++ l)
        nPath = some path := fun l => value_append_left (by simp [value?, nMethod, nScheme, nAuthority, nPath])
    have hproto : ∀ l, value? ([⟨nMethod, method⟩, ⟨nScheme, scheme⟩, ⟨nAuthority, authority⟩, ⟨nPath, path⟩] ++ l)
        nProtocol = value? l nProtocol := fun l => value_append_right (by
          simp only [List.mem_cons, List.not_mem_nil, or_false]
          rintro x (rfl | rfl | rfl | rfl) <;> (simp only [ne_eq]; decide))
    constructor
    · intro hw
      obtain ⟨h1, h2⟩ := wellFormed_parts hw
      refine ⟨?_, fun f hf => ?_⟩
      · intro v hv
        simp only [List.mem_cons, List.not_mem_nil, or_false] at hv
        rcases hv with rfl | rfl | rfl | rfl
        · exact h1 ⟨nMethod, _⟩ (by simp)
        · exact h1 ⟨nScheme, _⟩ (by simp)
        · exact h1 ⟨nAuthority, _⟩ (by simp)
        · exact h1 ⟨nPath, _⟩ (by simp)
      · obtain ⟨k1, k2, k3, k4⟩ := h2 f hf
        refine ⟨fun hp => ?_, k2, k3, k4⟩
        obtain ⟨d1, d2⟩ := k1 hp
        have e : f.name = nProtocol := by
          simp only [defined, List.mem_cons, List.not_mem_nil, or_false] at d1
          rcases d1 with d | d | d | d | d
          · exact absurd d.symm (d2 ⟨nMethod, method⟩ (by simp))
          · exact absurd d.symm (d2 ⟨nScheme, scheme⟩ (by simp))
          · exact absurd d.symm (d2 ⟨nAuthority, authority⟩ (by simp))
          · exact absurd d.symm (d2 ⟨nPath, path⟩ (by simp))
          · exact d
        have hc := hw.complete
        unfold Complete at hc
        rw [hmeth, if_neg (by simpa using hm), hproto] at hc
        exact value_of_mem hf (by rw [e]; exact hc.2.2.2)
    · rintro ⟨h1, h2⟩
      refine front_wellFormed hfront ?_ h2 ?_
      · simp only [List.mem_cons, List.not_mem_nil, or_false]
        rintro x (rfl | rfl | rfl | rfl)
        · exact h1 _ (by simp)
        · exact h1 _ (by simp)
        · exact h1 _ (by simp)
        · exact h1 _ (by simp)
      · unfold Complete
        rw [hmeth, if_neg (by simpa using hm), hsch, hpath, hproto,
          value_absent (fieldOk_not_defined h2 (by simp [defined]))]
        exact ⟨rfl, rfl, rfl, rfl⟩

/-- C110: what the application of the server gets of a request made with `fetch`: the
method and the target, each once and under its name, then the fields of the application,
and nothing else. -/
theorem C110_server_gets_the_request {method scheme authority path : Bytes} {hs fields : List Hd}
    (h : fetchFields method scheme authority path hs = some fields)
    (hv : ∀ v ∈ [method, scheme, authority, path], ValueOk v) (hh : ∀ f ∈ hs, FieldOk f) :
    ∃ got k, checkHeaders .request fields = .ok (k, got) ∧ k = .final ∧
      got.filter (fun f => f.name.head? ≠ some 0x3a) = hs ∧
      value? got nMethod = some method ∧ value? got nScheme = some scheme ∧
      value? got nAuthority = some authority ∧ value? got nPath = some path ∧
      (∀ f ∈ got, f ∈ hs ∨ f ∈ [⟨nMethod, method⟩, ⟨nScheme, scheme⟩, ⟨nAuthority, authority⟩, ⟨nPath, path⟩]) := by
  have hok := (C110_fetch_accepted_iff h).mpr ⟨hv, hh⟩
  unfold fetchFields RequestDesc.create at h
  by_cases hm : method = vConnect
  · rw [if_pos hm] at h; cases h
  · rw [if_neg hm] at h
    simp only [if_neg hm, Option.some.injEq] at h
    subst h
    have hck : ∃ k got, checkHeaders .request
        ([⟨nMethod, method⟩, ⟨nScheme, scheme⟩, ⟨nAuthority, authority⟩, ⟨nPath, path⟩] ++ hs) = .ok (k, got) := by
      unfold checkHeaders
      simp only [bind, Except.bind, pure, Except.pure, hok]
      split <;> exact ⟨_, _, rfl⟩
    obtain ⟨k, got, hck⟩ := hck
    obtain ⟨h1, h2, h3, h4⟩ := C72_request hck
    subst h1
    have hmeth : value? ([⟨nMethod, method⟩, ⟨nScheme, scheme⟩, ⟨nAuthority, authority⟩, ⟨nPath, path⟩] ++ hs)
        nMethod = some method := value_append_left (by simp [value?])
    refine ⟨_, k, hck, ?_, ?_, hmeth, value_append_left (by simp [value?, nMethod, nScheme]),
      value_append_left (by simp [value?, nMethod, nScheme, nAuthority]),
      value_append_left (by simp [value?, nMethod, nScheme, nAuthority, nPath]), ?_⟩
    · cases k with
      | final => rfl
      | interim => exact absurd rfl h4
      | connect =>
        have := (h3.mp rfl).1
        rw [hmeth] at this
        cases this
        exact absurd rfl hm
    · rw [List.filter_append]
      have e1 : [⟨nMethod, method⟩, ⟨nScheme, scheme⟩, ⟨nAuthority, authority⟩, (⟨nPath, path⟩ : Hd)].filter
          (fun f => f.name.head? ≠ some 0x3a) = [] := by
        simp [nMethod, nScheme, nAuthority, nPath]
      have e2 : hs.filter (fun f => f.name.head? ≠ some 0x3a) = hs := by
        rw [List.filter_eq_self]
        intro a ha
        simpa [Pseudo] using (hh a ha).plain
      rw [e1, e2]
      rfl
    · intro f hf
      rcases List.mem_append.mp hf with hf | hf
      · exact .inr hf
      · exact .inl hf

/-- C110: a request made with `connect` is accepted if the authority and the fields of the
application keep the rules; it has a method and an authority only.  Missing: the converse,
which is false (`C110_connect_can_be_bent`). -/
theorem C110_connect_accepted_partial {authority : Bytes} {hs : List Hd} (ha : ValueOk authority)
    (hh : ∀ f ∈ hs, FieldOk f) :
    ∃ fields, connectFields authority hs = some fields ∧ headersValid .request fields = .ok () ∧
      fields.filter (fun f => f.name.head? ≠ some 0x3a) = hs ∧
      value? fields nMethod = some vConnect ∧ value? fields nAuthority = some authority ∧
      value? fields nScheme = none ∧ value? fields nPath = none ∧ value? fields nProtocol = none := by
  refine ⟨[⟨nMethod, vConnect⟩, ⟨nAuthority, authority⟩] ++ hs, by simp [connectFields, RequestDesc.create], ?_⟩
  have hm : value? ([⟨nMethod, vConnect⟩, ⟨nAuthority, authority⟩] ++ hs) nMethod = some vConnect :=
    value_append_left (by simp [value?])
  have hau : value? ([⟨nMethod, vConnect⟩, ⟨nAuthority, authority⟩] ++ hs) nAuthority = some authority :=
    value_append_left (by simp [value?, nMethod, nAuthority])
  have hno : ∀ n ∈ [nScheme, nPath, nProtocol],
      value? ([⟨nMethod, vConnect⟩, ⟨nAuthority, authority⟩] ++ hs) n = none := by
    intro n hn
    simp only [List.mem_cons, List.not_mem_nil, or_false] at hn
    rcases hn with rfl | rfl | rfl
    all_goals
      rw [value_append_right (by simp [nMethod, nAuthority, nScheme, nPath, nProtocol])]
      exact value_absent (fieldOk_not_defined hh (by simp [defined]))
  refine ⟨?_, ?_, hm, hau, hno _ (by simp), hno _ (by simp), hno _ (by simp)⟩
  · rw [C72_accepted]
    refine front_wellFormed (front_of_names (show List.Nodup [nMethod, nAuthority] by decide)
      (show ∀ n ∈ [nMethod, nAuthority], n ∈ defined .request by decide)) ?_ hh ?_
    · simp only [List.mem_cons, List.not_mem_nil, or_false]
      rintro x (rfl | rfl)
      · show ∀ b ∈ vConnect, _
        decide
      · exact ha
    · unfold Complete
      rw [hm, if_pos rfl, hau, hno nProtocol (by simp)]
      exact ⟨rfl, rfl, (fun h => by cases h), (fun h => by cases h)⟩
  · rw [List.filter_append]
    have e1 : [⟨nMethod, vConnect⟩, (⟨nAuthority, authority⟩ : Hd)].filter
        (fun f => f.name.head? ≠ some 0x3a) = [] := by
      simp [nMethod, nAuthority]
    have e2 : hs.filter (fun f => f.name.head? ≠ some 0x3a) = hs := by
      rw [List.filter_eq_self]
      intro a ha
      simpa [Pseudo] using (hh a ha).plain
    rw [e1, e2]
    rfl

/-- C110, what is missing: the fields of the application are not checked, so that `connect`
with pseudo-header fields among them makes another kind of request, here an extended
CONNECT, and the server takes it. -/
theorem C110_connect_can_be_bent : ∃ authority hs fields, connectFields authority hs = some fields ∧
    (∃ got, checkHeaders .request fields = .ok (.connect, got)) ∧ ¬ ∀ f ∈ hs, FieldOk f := by
  refine ⟨[0x61], [⟨nScheme, vHttps⟩, ⟨nPath, [0x2f]⟩, ⟨nProtocol, vWebtransport⟩], _, rfl, ⟨_, rfl⟩, ?_⟩
  intro h
  exact (h ⟨nScheme, vHttps⟩ (by simp)).plain rfl

/-- C110: the request of an extended CONNECT is accepted exactly if the target and the
fields of the application keep the rules, and, for WebTransport, the scheme is `https`. -/
theorem C110_extended_accepted_iff {udp : Bool} {scheme authority path : Bytes} {hs fields : List Hd}
    (h : extendedFields udp scheme authority path hs = some fields) :
    headersValid .request fields = .ok () ↔
      (∀ v ∈ [scheme, authority, path], ValueOk v) ∧ (∀ f ∈ hs, FieldOk f) ∧
      (udp = false → scheme = vHttps) := by
  -- the two kinds at once: the value of `:protocol` and the fields after it
  have main : ∀ (proto : Bytes) (tail : List Hd), ValueOk proto →
      (headersValid .request ([⟨nMethod, vConnect⟩, ⟨nScheme, scheme⟩, ⟨nAuthority, authority⟩, ⟨nPath, path⟩,
        ⟨nProtocol, proto⟩] ++ tail) = .ok () ↔
      (∀ v ∈ [scheme, authority, path], ValueOk v) ∧ (∀ f ∈ tail, FieldOk f) ∧
      (proto = vWebtransport → scheme = vHttps)) := by
    intro proto tail hpv
    rw [C72_accepted]
    have hm : value? ([⟨nMethod, vConnect⟩, ⟨nScheme, scheme⟩, ⟨nAuthority, authority⟩, ⟨nPath, path⟩,
        ⟨nProtocol, proto⟩] ++ tail) nMethod = some vConnect := value_append_left (by simp [value?])
    have hs : value? ([⟨nMethod, vConnect⟩, ⟨nScheme, scheme⟩, ⟨nAuthority, authority⟩, ⟨nPath, path⟩,
        ⟨nProtocol, proto⟩] ++ tail) nScheme = some scheme :=
      value_append_left (by simp [value?, nMethod, nScheme])
    have hau : value? ([⟨nMethod, vConnect⟩, ⟨nScheme, scheme⟩, ⟨nAuthority, authority⟩, ⟨nPath, path⟩,
        ⟨nProtocol, proto⟩] ++ tail) nAuthority = some authority :=
      value_append_left (by simp [value?, nMethod, nScheme, nAuthority])
    have hpa : value? ([⟨nMethod, vConnect⟩, ⟨nScheme, scheme⟩, ⟨nAuthority, authority⟩, ⟨nPath, path⟩,
        ⟨nProtocol, proto⟩] ++ tail) nPath = some path :=
      value_append_left (by simp [value?, nMethod, nScheme, nAuthority, nPath])
    have hpr : value? ([⟨nMethod, vConnect⟩, ⟨nScheme, scheme⟩, ⟨nAuthority, authority⟩, ⟨nPath, path⟩,
        ⟨nProtocol, proto⟩] ++ tail) nProtocol = some proto :=
      value_append_left (by simp [value?, nMethod, nScheme, nAuthority, nPath, nProtocol])
    constructor
    · intro hw
      obtain ⟨h1, h2⟩ := wellFormed_parts hw
      refine ⟨?_, fun f hf => ?_, ?_⟩
      · intro v hv
        simp only [List.mem_cons, List.not_mem_nil, or_false] at hv
        rcases hv with rfl | rfl | rfl
        · exact h1 ⟨nScheme, _⟩ (by simp)
        · exact h1 ⟨nAuthority, _⟩ (by simp)
        · exact h1 ⟨nPath, _⟩ (by simp)
      · obtain ⟨k1, k2, k3, k4⟩ := h2 f hf
        refine ⟨fun hp => ?_, k2, k3, k4⟩
        obtain ⟨d1, d2⟩ := k1 hp
        simp only [defined, List.mem_cons, List.not_mem_nil, or_false] at d1
        rcases d1 with d | d | d | d | d
        · exact absurd d.symm (d2 ⟨nMethod, vConnect⟩ (by simp))
        · exact absurd d.symm (d2 ⟨nScheme, scheme⟩ (by simp))
        · exact absurd d.symm (d2 ⟨nAuthority, authority⟩ (by simp))
        · exact absurd d.symm (d2 ⟨nPath, path⟩ (by simp))
        · exact absurd d.symm (d2 ⟨nProtocol, proto⟩ (by simp))
      · have hc := hw.complete
        unfold Complete at hc
        rw [hm, if_pos rfl, hpr, hs] at hc
        exact fun e => by simpa using hc.2.2.2 (by rw [e])
    · rintro ⟨h1, h2, h3⟩
      refine front_wellFormed (front_of_names
        (show List.Nodup [nMethod, nScheme, nAuthority, nPath, nProtocol] by decide)
        (show ∀ n ∈ [nMethod, nScheme, nAuthority, nPath, nProtocol], n ∈ defined .request by decide)) ?_ h2 ?_
      · simp only [List.mem_cons, List.not_mem_nil, or_false]
        rintro x (rfl | rfl | rfl | rfl | rfl)
        · show ∀ b ∈ vConnect, _
          decide
        · exact h1 _ (by simp)
        · exact h1 _ (by simp)
        · exact h1 _ (by simp)
        · exact hpv
      · unfold Complete
        rw [hm, if_pos rfl, hau, hpr, hs, hpa]
        exact ⟨rfl, rfl, fun _ => ⟨rfl, rfl⟩, fun e => by rw [h3 (Option.some.inj e)]⟩
  have hcap : FieldOk ⟨nCapsule, [0x3f, 0x31]⟩ := by
    refine ⟨?_, ?_, ?_, ?_⟩
    · unfold Pseudo; decide
    · unfold NameOk; decide
    · unfold ValueOk; decide
    · decide
  cases udp with
  | false =>
    simp only [extendedFields, RequestDesc.create, Bool.false_eq_true, if_false, ne_eq, not_true_eq_false,
      Option.some.injEq] at h
    subst h
    rw [main vWebtransport hs (by unfold ValueOk; decide)]
    simp
  | true =>
    simp only [extendedFields, RequestDesc.create, if_true, ne_eq, not_true_eq_false, if_false,
      Option.some.injEq] at h
    subst h
    rw [main vConnectUdp _ (by unfold ValueOk; decide)]
    constructor
    · rintro ⟨h1, h2, _⟩
      exact ⟨h1, fun f hf => h2 f (by simp [hf]), fun h => by cases h⟩
    · rintro ⟨h1, h2, _⟩
      refine ⟨h1, fun f hf => ?_, fun h => absurd h (by decide)⟩
      rcases List.mem_cons.mp hf with rfl | hf
      · exact hcap
      · exact h2 f hf

/-- C110: the server knows an extended CONNECT as one, with its protocol. -/
theorem C110_extended_is_known {udp : Bool} {scheme authority path : Bytes} {hs fields : List Hd}
    (h : extendedFields udp scheme authority path hs = some fields)
    (hv : ∀ v ∈ [scheme, authority, path], ValueOk v) (hh : ∀ f ∈ hs, FieldOk f)
    (hsch : udp = false → scheme = vHttps) :
    checkHeaders .request fields = .ok (.connect, fields) ∧
      value? fields nProtocol = some (if udp then vConnectUdp else vWebtransport) ∧
      value? fields nAuthority = some authority ∧ value? fields nPath = some path := by
  have hok := (C110_extended_accepted_iff h).mpr ⟨hv, hh, hsch⟩
  have hvals : value? fields nMethod = some vConnect ∧
      value? fields nProtocol = some (if udp then vConnectUdp else vWebtransport) ∧
      value? fields nAuthority = some authority ∧ value? fields nPath = some path := by
    cases udp with
    | false =>
      simp only [extendedFields, RequestDesc.create, Bool.false_eq_true, if_false, ne_eq, not_true_eq_false,
        Option.some.injEq] at h
      subst h
      exact ⟨value_append_left (by simp [value?]),
        value_append_left (by simp [value?, nMethod, nScheme, nAuthority, nPath, nProtocol]),
        value_append_left (by simp [value?, nMethod, nScheme, nAuthority]),
        value_append_left (by simp [value?, nMethod, nScheme, nAuthority, nPath])⟩
    | true =>
      simp only [extendedFields, RequestDesc.create, if_true, ne_eq, not_true_eq_false, if_false,
        Option.some.injEq] at h
      subst h
      exact ⟨value_append_left (by simp [value?]),
        value_append_left (by simp [value?, nMethod, nScheme, nAuthority, nPath, nProtocol]),
        value_append_left (by simp [value?, nMethod, nScheme, nAuthority]),
        value_append_left (by simp [value?, nMethod, nScheme, nAuthority, nPath])⟩
  refine ⟨?_, hvals.2⟩
  have hck : ∃ k got, checkHeaders .request fields = .ok (k, got) := by
    unfold checkHeaders
    simp only [bind, Except.bind, pure, Except.pure, hok]
    split <;> exact ⟨_, _, rfl⟩
  obtain ⟨k, got, hck⟩ := hck
  obtain ⟨h1, h2, h3, h4⟩ := C72_request hck
  subst h1
  have : k = .connect := h3.mpr ⟨hvals.1, by rw [hvals.2.1]; rfl⟩
  rw [hck, this]

/-! ## Examples -/

/-- `GET https://a/b` with `accept: *` -/
def exFields : List Hd := [⟨[0x61, 0x63, 0x63, 0x65, 0x70, 0x74], [0x2a]⟩]

example : (∀ v ∈ [[0x47, 0x45, 0x54], vHttps, [0x61], [0x2f, 0x62]], ValueOk v) ∧ ∀ f ∈ exFields, FieldOk f := by
  constructor
  · unfold ValueOk; decide
  · intro f hf
    cases List.mem_singleton.mp hf
    refine ⟨?_, ?_, ?_, ?_⟩
    · unfold Pseudo; decide
    · unfold NameOk; decide
    · unfold ValueOk; decide
    · decide

example : (fetchFields [0x47, 0x45, 0x54] vHttps [0x61] [0x2f, 0x62] exFields).map (headersValid .request) =
    some (.ok ()) := by decide +kernel

/-- A field with a capital letter goes out, and the server refuses the request. -/
example : (fetchFields [0x47, 0x45, 0x54] vHttps [0x61] [0x2f, 0x62] [⟨[0x41], []⟩]).map (headersValid .request) =
    some (.error .invalidHeader) := by decide +kernel

end Neqo.H3
