import Verif.H3.SettingsLemmas

/-!
# C66: the settings of an HTTP/3 peer are understood as they were sent;
# C67: settings and 0-RTT
-/
namespace Neqo.H3
open Neqo.Codec

/-! ## C66 -/

theorem decode_spec (bs : Bytes) :
    match Spec.pairs bs with
    | some ps =>
      if ps.any Spec.badPair then Settings.decode bs = .error .httpSettings
      else ∃ s', Settings.decode bs = .ok s' ∧ Says s' ps
    | none => ∃ e, Settings.decode bs = .error e ∧ (e = .httpSettings ∨ e = .notEnoughData) := by
  have := decodeLoop_spec (bs.length + 1) [] [] bs (by omega) says_nil
  unfold Spec.pairs Settings.decode
  cases h : Spec.pairsLoop (bs.length + 1) bs with
  | none => simpa only [h] using this
  | some ps => simpa only [h, List.nil_append] using this

/-- Settings that are accepted are complete pairs of identifier and value, none of
which is forbidden, and every setting has the value that was sent for it first, or
its default. -/
theorem C66_decoded (bs : Bytes) (s : Settings) (h : Settings.decode bs = .ok s) :
    ∃ ps, Spec.pairs bs = some ps ∧ (∀ p ∈ ps, Spec.badPair p = false) ∧
      ∀ ty, s.get ty = Spec.valueIn ps ty := by
  have := decode_spec bs
  cases hp : Spec.pairs bs with
  | none => rw [hp] at this; obtain ⟨e, he, _⟩ := this; rw [h] at he; cases he
  | some ps =>
    simp only [hp] at this
    by_cases hb : ps.any Spec.badPair = true
    · rw [if_pos hb, h] at this; cases this
    · rw [if_neg hb] at this
      obtain ⟨s', hs', hsay⟩ := this
      rw [h] at hs'; cases hs'
      exact ⟨ps, rfl, by simpa using hb, fun ty => (hsay ty).2⟩

example : ∃ s, Settings.decode [0x06, 0x41, 0x00, 0x21, 0x05, 0x33, 0x01, 0x06, 0x02] = .ok s ∧
    s.get .maxHeaderListSize = 256 ∧ s.get .enableH3Datagram = 1 ∧ s.get .blockedStreams = 0 := by
  refine ⟨_, rfl, ?_⟩; decide

/-- Everything that is allowed is accepted, unknown identifiers included. -/
theorem C66_accepted (bs : Bytes) (ps : List (Nat × Nat)) (hp : Spec.pairs bs = some ps)
    (hb : ∀ p ∈ ps, Spec.badPair p = false) : ∃ s, Settings.decode bs = .ok s := by
  have := decode_spec bs
  simp only [hp] at this
  rw [if_neg (by simpa using hb)] at this
  obtain ⟨s', hs', _⟩ := this
  exact ⟨s', hs'⟩

example : Spec.pairs [0x21, 0x05, 0x40, 0x99, 0x07] = some [(0x21, 5), (0x99, 7)] ∧
    Spec.badPair (0x21, 5) = false ∧ Spec.badPair (0x99, 7) = false := by decide

/-- A forbidden pair is reported as H3_SETTINGS_ERROR; anything else that is
refused ends within a pair. -/
theorem C66_refused (bs : Bytes) :
    (∀ ps, Spec.pairs bs = some ps → (∃ p ∈ ps, Spec.badPair p = true) →
      Settings.decode bs = .error .httpSettings) ∧
    (Spec.pairs bs = none →
      Settings.decode bs = .error .httpSettings ∨ Settings.decode bs = .error .notEnoughData) := by
  have := decode_spec bs
  refine ⟨fun ps hp hb => ?_, fun hp => ?_⟩
  · simp only [hp] at this
    rwa [if_pos (by simpa using hb)] at this
  · simp only [hp] at this
    obtain ⟨e, he, rfl | rfl⟩ := this
    · exact .inl he
    · exact .inr he

example : Spec.pairs [0x06, 0x01, 0x33, 0x02] = some [(6, 1), (0x33, 2)] ∧
    Spec.badPair (0x33, 2) = true ∧ Spec.pairs [0x06] = none := by decide

/-- The settings that this implementation builds: each at most once, switches on
or off, values that fit a varint. -/
def Settings.Ok (s : Settings) : Prop :=
  (s.map Setting.ty).Nodup ∧ ∀ x ∈ s, x.value < 2 ^ 62 ∧ (Spec.isSwitch x.ty → x.value ≤ 1)

instance (s : Settings) : Decidable s.Ok := by unfold Settings.Ok; infer_instance

theorem wire_ty {x : Setting} {p : Nat × Nat} (h : p ∈ x.wire) :
    Spec.settingOf p.1 = some x.ty ∧ p.2 = x.value ∧ p.1 < 2 ^ 62 ∧ p.1 ∉ [2, 3, 4, 5] := by
  obtain ⟨ty, v⟩ := x
  cases ty <;> simp only [Setting.wire] at h
  · simp at h; subst h; simp [Spec.settingOf]
  · simp at h; subst h; simp [Spec.settingOf]
  · simp at h; subst h; simp [Spec.settingOf]
  · simp at h; subst h; simp [Spec.settingOf]
  · split at h
    · simp at h; rcases h with h | h <;> subst h <;> simp [Spec.settingOf]
    · simp at h
  · split at h
    · simp at h; subst h; simp [Spec.settingOf]
    · simp at h

theorem valueIn_wire : ∀ (s : Settings), s.Ok → ∀ ty,
    Spec.valueIn (s.flatMap Setting.wire) ty = s.get ty
  | [], _, ty => by cases ty <;> rfl
  | x :: s, h, ty => by
    have hs : Settings.Ok s := by
      refine ⟨?_, fun y hy => h.2 y (by simp [hy])⟩
      have := h.1; simp only [List.map_cons, List.nodup_cons] at this; exact this.2
    have ih := valueIn_wire s hs ty
    have hnot : x.ty ∉ s.map Setting.ty := by
      have := h.1; simp only [List.map_cons, List.nodup_cons] at this; exact this.1
    by_cases hx : x.ty = ty
    · have hget : Settings.get (x :: s) ty = x.value := by
        unfold Settings.get; rw [List.find?_cons_of_pos (by simpa using hx)]
      rw [hget]
      by_cases hw : x.wire = []
      · -- a switch that is off
        have hv : x.value = 0 ∧ ty ≠ .maxHeaderListSize := by
          have hle := (h.2 x (by simp)).2
          obtain ⟨t, v⟩ := x
          simp only at hx; subst hx
          cases t <;> simp [Setting.wire, Spec.isSwitch] at hw hle ⊢ <;> omega
        rw [List.flatMap_cons, hw, List.nil_append, ih, hv.1]
        unfold Settings.get
        have : s.find? (fun y => y.ty = ty) = none := by
          rw [List.find?_eq_none]
          intro y hy he
          apply hnot
          rw [List.mem_map]
          exact ⟨y, hy, by simp at he; rw [he, hx]⟩
        rw [this]
        cases ty <;> simp_all [settingDefault]
      · obtain ⟨p, ps, hps⟩ := List.exists_cons_of_ne_nil hw
        have := wire_ty (x := x) (p := p) (by rw [hps]; simp)
        unfold Spec.valueIn
        rw [List.flatMap_cons, hps, List.cons_append,
          List.find?_cons_of_pos (by simp [this.1, hx])]
        exact this.2.1
    · have hget : Settings.get (x :: s) ty = Settings.get s ty := by
        unfold Settings.get; rw [List.find?_cons_of_neg (by simpa using hx)]
      rw [hget, ← ih]
      unfold Spec.valueIn
      rw [List.flatMap_cons, List.find?_append]
      have : x.wire.find? (fun p => Spec.settingOf p.1 = some ty) = none := by
        rw [List.find?_eq_none]
        intro p hp he
        have := (wire_ty hp).1
        simp [this] at he
        exact hx he
      rw [this, Option.none_or]

/-- Settings survive the trip: the peer reads from the frame that is written the
value of every setting, those that are left out because they are off included. -/
theorem C66_roundtrip (s : Settings) (h : s.Ok) :
    ∃ bs s', s.encode = some bs ∧ Settings.decode bs = .ok s' ∧ ∀ ty, s'.get ty = s.get ty := by
  have hps : ∀ p ∈ s.flatMap Setting.wire, p.1 < 2 ^ 62 ∧ p.2 < 2 ^ 62 := by
    intro p hp
    obtain ⟨x, hx, hp⟩ := List.mem_flatMap.mp hp
    have := wire_ty hp
    exact ⟨this.2.2.1, by rw [this.2.1]; exact (h.2 x hx).1⟩
  obtain ⟨e, he, hd⟩ := encodePairs_ok _ hps
  have hpairs : Spec.pairs e = some (s.flatMap Setting.wire) := hd _ (by omega)
  have hok : ∀ p ∈ s.flatMap Setting.wire, Spec.badPair p = false := by
    intro p hp
    obtain ⟨x, hx, hp⟩ := List.mem_flatMap.mp hp
    have := wire_ty hp
    unfold Spec.badPair
    rw [this.1, this.2.1]
    have h2 := (h.2 x hx).2
    have h3 := this.2.2.2
    simp only [Bool.or_eq_false_iff]
    refine ⟨by simpa using h3, ?_⟩
    cases hsw : Spec.isSwitch x.ty with
    | false => rfl
    | true => simpa using h2 hsw
  obtain ⟨s', hs'⟩ := C66_accepted e _ hpairs hok
  refine ⟨e, s', he, hs', fun ty => ?_⟩
  obtain ⟨ps, hp, _, hv⟩ := C66_decoded e s' hs'
  rw [hpairs] at hp; cases hp
  rw [hv, valueIn_wire s h]

/-- In particular whatever an application configures reaches the peer. -/
theorem C66_configured (p : Params) (h : p.Ok) :
    ∃ bs s, (Settings.ofParams p).encode = some bs ∧ Settings.decode bs = .ok s ∧
      s.get .maxTableCapacity = p.maxTable ∧ s.get .blockedStreams = p.maxBlocked ∧
      (s.get .enableWebTransport = 1 ↔ p.webTransport) ∧
      (s.get .enableH3Datagram = 1 ↔ p.datagram) ∧ (s.get .enableConnect = 1 ↔ p.connect) := by
  obtain ⟨tab, blk, wt, dg, co⟩ := p
  have hok : (Settings.ofParams ⟨tab, blk, wt, dg, co⟩).Ok := by
    have := h.1; have := h.2
    simp only at *
    refine ⟨by simp [Settings.ofParams], ?_⟩
    intro x hx
    simp only [Settings.ofParams, List.mem_cons, List.not_mem_nil, or_false] at hx
    rcases hx with rfl | rfl | rfl | rfl | rfl
    · exact ⟨by simp only; omega, by simp [Spec.isSwitch]⟩
    · exact ⟨by simp only; omega, by simp [Spec.isSwitch]⟩
    · cases wt <;> simp
    · cases dg <;> simp
    · cases co <;> simp
  obtain ⟨bs, s, he, hd, hv⟩ := C66_roundtrip _ hok
  refine ⟨bs, s, he, hd, ?_⟩
  simp only [hv]
  cases wt <;> cases dg <;> cases co <;> simp [Settings.get, Settings.ofParams]

example : (Settings.ofParams ⟨65536, 20, true, true, false⟩).encode =
      some [0x01, 0x80, 0x01, 0x00, 0x00, 0x07, 0x14, 0xab, 0x60, 0x37, 0x42, 0x01,
        0x80, 0xff, 0xd2, 0x77, 0x01, 0x33, 0x01] ∧
    Params.Ok ⟨65536, 20, true, true, false⟩ := by
  constructor
  · decide +kernel
  · decide

/-- The first settings of a peer are taken, whatever they are, if they are not
too large for QPACK. -/
theorem C66_first_settings_partial (s : Settings) (q : Nat × Nat)
    (h1 : s.get .maxTableCapacity < 2 ^ 30) (h2 : s.get .blockedStreams < 2 ^ 16) :
    handleSettings .notReceived q s =
      .ok (.received s, s.get .maxTableCapacity, s.get .blockedStreams) := by
  simp only [handleSettings, setQpackSettings]
  rw [if_neg (by omega), if_neg (by omega)]
  rfl

/-- Settings that the standard allows and that `Settings.decode` accepts close the
connection: more than 65535 blocked streams, or a table of 2^30 bytes.  (RFC 9204
§7.4 lets an encoder use less than it is offered; instead the connection is closed
although the peer did nothing wrong.) -/
theorem C66_large_settings_close :
    (∃ bs s, Spec.pairs bs = some [(0x7, 65536)] ∧ Settings.decode bs = .ok s ∧
      handleSettings .notReceived (0, 0) s = .error .qpackEncoderStream) ∧
    (∃ bs s, Spec.pairs bs = some [(0x1, 2 ^ 30)] ∧ Settings.decode bs = .ok s ∧
      handleSettings .notReceived (0, 0) s = .error .qpackEncoderStream) :=
  ⟨⟨[0x07, 0x80, 0x01, 0x00, 0x00], [⟨.blockedStreams, 65536⟩], by decide +kernel⟩,
   ⟨[0x01, 0xc0, 0, 0, 0, 0x40, 0, 0, 0], [⟨.maxTableCapacity, 2 ^ 30⟩], by decide +kernel⟩⟩

/-- A second SETTINGS frame is an error. -/
theorem C66_second_refused (s s' : Settings) (q : Nat × Nat) :
    handleSettings (.received s) q s' = .error .frameUnexpected := rfl

/-! ## C67 -/

/-- The bytes of a ticket. -/
theorem saved_pairs (p : Params) (h : p.Ok) :
    ∃ v e, zeroRttSave p = some (v ++ e) ∧ (∀ s, decodeVarint (v ++ s) = some (1, s)) ∧
      Spec.pairs e = some ([(0x1, p.maxTable), (0x7, p.maxBlocked)]
        ++ (if p.webTransport then [(0x2b603742, 1)] else [])
        ++ (if p.datagram then [(0x33, 1)] else [])) := by
  obtain ⟨v, hv, hvd⟩ := encodeVarint_decode (v := 1) (by decide)
  obtain ⟨e, he, hd⟩ := encodePairs_ok ([(0x1, p.maxTable), (0x7, p.maxBlocked)]
        ++ (if p.webTransport then [(0x2b603742, 1)] else [])
        ++ (if p.datagram then [(0x33, 1)] else [])) (by
    have := h.1; have := h.2
    intro x hx
    simp only [List.mem_append, List.mem_cons, List.not_mem_nil, or_false] at hx
    rcases hx with ((rfl | rfl) | hx) | hx
    · simp only; omega
    · simp only; omega
    · split at hx
      · simp at hx; subst hx; simp
      · simp at hx
    · split at hx
      · simp at hx; subst hx; simp
      · simp at hx)
  refine ⟨v, e, ?_, hvd, hd _ (by omega)⟩
  unfold zeroRttSave
  rw [hv, he]
  rfl

/-- Decoding is adding one pair after the other. -/
theorem decodeLoop_fold : ∀ (fuel : Nat) (s : Settings) (bs : Bytes) (ps : List (Nat × Nat)),
    Spec.pairsLoop fuel bs = some ps → (∀ p ∈ ps, p.1 ∉ reservedSettings) →
    s.decodeLoop fuel bs = ps.foldlM (fun s p => Settings.add s p.1 p.2) s
  | 0, _, _, _, h, _ => by simp [Spec.pairsLoop] at h
  | fuel + 1, s, [], ps, h, _ => by
    simp only [Spec.pairsLoop, Option.some.injEq] at h; subst h; rfl
  | fuel + 1, s, b :: bs, ps, h, hr => by
    unfold Spec.pairsLoop at h
    unfold Settings.decodeLoop
    cases h1 : decodeVarint (b :: bs) with
    | none => simp [h1] at h
    | some x =>
      obtain ⟨t, r1⟩ := x
      simp only [h1] at h ⊢
      cases h2 : decodeVarint r1 with
      | none => simp [h2] at h
      | some y =>
        obtain ⟨v, r2⟩ := y
        simp only [h2, Option.map_eq_some_iff] at h ⊢
        obtain ⟨ps', hps', rfl⟩ := h
        rw [if_neg (hr (t, v) (by simp)), List.foldlM_cons]
        cases ha : s.add t v with
        | error e => rfl
        | ok s' =>
          simp only
          rw [decodeLoop_fold fuel s' r2 ps' hps' (fun p hp => hr p (by simp [hp]))]
          rfl

/-- What the saved settings decode to. -/
def savedSettings (p : Params) : Settings :=
  [⟨.maxTableCapacity, p.maxTable⟩, ⟨.blockedStreams, p.maxBlocked⟩]
    ++ (if p.webTransport then [⟨.enableWebTransport, 1⟩] else [])
    ++ (if p.datagram then [⟨.enableH3Datagram, 1⟩] else [])

theorem saved_decodes (p : Params) (h : p.Ok) :
    ∃ v e, zeroRttSave p = some (v ++ e) ∧ (∀ s, decodeVarint (v ++ s) = some (1, s)) ∧
      Settings.decode e = .ok (savedSettings p) := by
  obtain ⟨v, e, hs, hv, hp⟩ := saved_pairs p h
  refine ⟨v, e, hs, hv, ?_⟩
  unfold Settings.decode
  rw [decodeLoop_fold _ _ _ _ hp (by
    obtain ⟨tab, blk, wt, dg, co⟩ := p
    cases wt <;> cases dg <;> simp [reservedSettings])]
  obtain ⟨tab, blk, wt, dg, co⟩ := p
  cases wt <;> cases dg <;>
    simp [Settings.add, savedSettings, List.foldlM_cons, pure, Except.pure, bind, Except.bind]

/-- A server that restarts with other parameters `p` accepts 0-RTT with a ticket
issued under `q` exactly if none of what the ticket records was reduced, and
otherwise rejects it; it never fails on a ticket of its own.

Missing from the full property: whether extended CONNECT was offered
(`C67_connect_forgotten`). -/
theorem C67_server_partial (p q : Params) (hq : q.Ok) :
    ∃ ticket, zeroRttSave q = some ticket ∧
      zeroRttCheck p ticket =
        if q.maxTable ≤ p.maxTable ∧ q.maxBlocked ≤ p.maxBlocked ∧
          (q.webTransport → p.webTransport) ∧ (q.datagram → p.datagram)
        then .accept else .reject := by
  obtain ⟨v, e, hs, hv, hd⟩ := saved_decodes q hq
  refine ⟨v ++ e, hs, ?_⟩
  unfold zeroRttCheck
  rw [hv]
  simp only [ne_eq, not_true_eq_false, if_false, hd]
  obtain ⟨tab, blk, wt, dg, co⟩ := q
  obtain ⟨tab', blk', wt', dg', co'⟩ := p
  have : ((savedSettings ⟨tab, blk, wt, dg, co⟩).all (zeroRttOk ⟨tab', blk', wt', dg', co'⟩) = true)
      ↔ (tab ≤ tab' ∧ blk ≤ blk' ∧ (wt → wt') ∧ (dg → dg')) := by
    cases wt <;> cases dg <;> simp [savedSettings, zeroRttOk, and_assoc]
  by_cases hc : tab ≤ tab' ∧ blk ≤ blk' ∧ (wt → wt') ∧ (dg → dg')
  · rw [if_pos (this.mpr hc), if_pos hc]
  · rw [if_neg (fun h => hc (this.mp h)), if_neg hc]

example : Params.Ok ⟨65536, 20, true, true, false⟩ := by decide

/-- A ticket that is cut short or of another version is not accepted. -/
theorem C67_bad_ticket (p : Params) (t : Bytes) (h : zeroRttCheck p t = .accept) :
    ∃ rest ps, decodeVarint t = some (1, rest) ∧ Spec.pairs rest = some ps ∧
      (∀ x ∈ ps, Spec.badPair x = false) := by
  unfold zeroRttCheck at h
  cases hv : decodeVarint t with
  | none => simp [hv] at h
  | some x =>
    obtain ⟨v, rest⟩ := x
    simp only [hv] at h
    by_cases h1 : v = 1
    · subst h1
      simp only [ne_eq, not_true_eq_false, if_false] at h
      cases hd : Settings.decode rest with
      | error e => simp [hd] at h
      | ok s =>
        obtain ⟨ps, hp, hb, _⟩ := C66_decoded rest s hd
        exact ⟨rest, ps, rfl, hp, hb⟩
    · simp [h1] at h

theorem compareSettings_spec (old new : Settings) : ∀ (l : List SettingType) (c r : Bool),
    compareSettings old new l c = .ok r →
    (∀ ty ∈ l, old.get ty ≤ new.get ty) ∧
    (SettingType.maxTableCapacity ∈ l → old.get .maxTableCapacity ≠ 0 →
      old.get .maxTableCapacity = new.get .maxTableCapacity)
  | [], _, _, _ => by simp
  | st :: rest, c, r, h => by
    unfold compareSettings at h
    simp only at h
    have key : ∀ c', compareSettings old new rest c' = .ok r → old.get st ≤ new.get st →
        (st = .maxTableCapacity → old.get st ≠ 0 → old.get st = new.get st) →
        (∀ ty ∈ st :: rest, old.get ty ≤ new.get ty) ∧
        (SettingType.maxTableCapacity ∈ st :: rest → old.get .maxTableCapacity ≠ 0 →
          old.get .maxTableCapacity = new.get .maxTableCapacity) := by
      intro c' hc hle ht
      have ih := compareSettings_spec old new rest c' r hc
      refine ⟨fun ty hty => ?_, fun hm h0 => ?_⟩
      · rcases List.mem_cons.mp hty with rfl | hty
        · exact hle
        · exact ih.1 ty hty
      · rcases List.mem_cons.mp hm with hm | hm
        · subst hm; exact ht rfl h0
        · exact ih.2 hm h0
    by_cases h1 : old.get st = new.get st
    · rw [if_pos h1] at h
      exact key _ h (by omega) (fun _ _ => h1)
    · rw [if_neg h1] at h
      by_cases h2 : old.get st > new.get st
      · rw [if_pos h2] at h; cases h
      · rw [if_neg h2] at h
        cases st <;> simp only at h
        case maxTableCapacity =>
          by_cases h0 : old.get .maxTableCapacity = 0
          · rw [if_neg (by simpa using h0)] at h
            exact key _ h (by omega) (fun _ hne => absurd h0 hne)
          · rw [if_pos h0] at h; cases h
        all_goals exact key _ h (by omega) (fun hc => by cases hc)

theorem compareSettings_unchanged (old new : Settings) : ∀ (l : List SettingType) (c : Bool),
    compareSettings old new l c = .ok false → c = false ∧
      ∀ ty ∈ l, ty = .maxTableCapacity ∨ ty = .blockedStreams → old.get ty = new.get ty
  | [], c, h => by
    simp only [compareSettings, Except.ok.injEq] at h
    exact ⟨h, fun _ h => by cases h⟩
  | st :: rest, c, h => by
    unfold compareSettings at h
    simp only at h
    by_cases h1 : old.get st = new.get st
    · rw [if_pos h1] at h
      have ih := compareSettings_unchanged old new rest c h
      refine ⟨ih.1, fun ty hty hk => ?_⟩
      rcases List.mem_cons.mp hty with rfl | hty
      · exact h1
      · exact ih.2 ty hty hk
    · rw [if_neg h1] at h
      by_cases h2 : old.get st > new.get st
      · rw [if_pos h2] at h; cases h
      · rw [if_neg h2] at h
        have other : compareSettings old new rest c = .ok false → st ≠ .maxTableCapacity → st ≠ .blockedStreams →
            c = false ∧ ∀ ty ∈ st :: rest, ty = .maxTableCapacity ∨ ty = .blockedStreams → old.get ty = new.get ty := by
          intro h n1 n2
          have ih := compareSettings_unchanged old new rest c h
          refine ⟨ih.1, fun ty hty hk => ?_⟩
          rcases List.mem_cons.mp hty with rfl | hty
          · rcases hk with hk | hk
            · exact absurd hk n1
            · exact absurd hk n2
          · exact ih.2 ty hty hk
        cases st <;> simp only at h
        case maxTableCapacity =>
          split at h
          · cases h
          · have ih := compareSettings_unchanged old new rest true h
            cases ih.1
        case blockedStreams =>
          have ih := compareSettings_unchanged old new rest true h
          cases ih.1
        all_goals exact other h (fun hc => by cases hc) (fun hc => by cases hc)

/-- A client that used 0-RTT with remembered settings goes on only if the server's
settings reduce none of them, and do not change a table capacity other than 0.  From
then on it keeps to the new settings.

Missing from the full property: extended CONNECT (`C67_connect_forgotten`). -/
theorem C67_client_partial (old new : Settings) (q q' : Nat × Nat) (st0 st : RemoteSettings)
    (h0 : set0rttSettings old = .ok (st0, q)) (h : handleSettings st0 q new = .ok (st, q')) :
    st = .received new ∧ (∀ ty, ty ≠ .enableConnect → old.get ty ≤ new.get ty) ∧
    (old.get .maxTableCapacity ≠ 0 → new.get .maxTableCapacity = old.get .maxTableCapacity) ∧
    q' = (new.get .maxTableCapacity, new.get .blockedStreams) := by
  have hset : ∀ s x, setQpackSettings s = .ok x → x = (s.get .maxTableCapacity, s.get .blockedStreams) := by
    intro s x hx
    unfold setQpackSettings at hx
    split at hx
    · cases hx
    split at hx
    · cases hx
    cases hx; rfl
  simp only [set0rttSettings, Except.bind_eq_ok] at h0
  obtain ⟨q1, hq1, h0⟩ := h0
  simp only [pure, Except.pure, Except.ok.injEq, Prod.mk.injEq] at h0
  obtain ⟨e1, e2⟩ := h0
  subst e1; subst e2
  have hq := hset old q1 hq1
  simp only [handleSettings, Except.bind_eq_ok] at h
  obtain ⟨c, hc, h⟩ := h
  have hh : ∃ q2, (if c then setQpackSettings new else pure q1) = .ok q2 ∧
      st = .received new ∧ q' = q2 := by
    cases c with
    | true =>
      simp only [if_true, Except.bind_eq_ok] at h
      obtain ⟨q2, h2, h⟩ := h
      cases h
      exact ⟨_, h2, rfl, rfl⟩
    | false =>
      cases h
      exact ⟨_, rfl, rfl, rfl⟩
  obtain ⟨q2, h2, hst, e3⟩ := hh
  subst e3
  have hq2 : q' = (new.get .maxTableCapacity, new.get .blockedStreams) := by
    cases c with
    | true => exact hset new q' h2
    | false =>
      simp only [Bool.false_eq_true, if_false, pure, Except.pure, Except.ok.injEq] at h2
      have hu := compareSettings_unchanged old new comparedSettings false hc
      rw [← h2, hq, hu.2 _ (by decide) (Or.inl rfl), hu.2 _ (by decide) (Or.inr rfl)]
  have hs := compareSettings_spec old new comparedSettings false c hc
  refine ⟨hst, fun ty hty => hs.1 ty ?_, fun h0 => (hs.2 (by decide) h0).symm, hq2⟩
  cases ty <;> first | decide | exact absurd rfl hty

example : set0rttSettings (Settings.ofParams ⟨100, 5, false, true, false⟩) =
      .ok (.zeroRtt (Settings.ofParams ⟨100, 5, false, true, false⟩), 100, 5) ∧
    handleSettings (.zeroRtt (Settings.ofParams ⟨100, 5, false, true, false⟩)) (100, 5)
      (Settings.ofParams ⟨100, 10, true, true, false⟩) =
    .ok (.received (Settings.ofParams ⟨100, 10, true, true, false⟩), 100, 10) := by decide

theorem get_ofParams (p : Params) :
    (Settings.ofParams p).get .maxHeaderListSize = 2 ^ 62 ∧
    (Settings.ofParams p).get .maxTableCapacity = p.maxTable ∧
    (Settings.ofParams p).get .blockedStreams = p.maxBlocked ∧
    (Settings.ofParams p).get .enableWebTransport = p.webTransport.toNat ∧
    (Settings.ofParams p).get .enableH3Datagram = p.datagram.toNat := by
  simp [Settings.get, Settings.ofParams, settingDefault]

/-- The two sides agree: if a server accepts 0-RTT with a ticket it issued under
`q`, a client that remembers the settings of `q` takes the settings of the new
connection.  `old` and `new` are what the client has read from the frames
(`C66_roundtrip`).

Missing from the full property: a table capacity that was raised
(`C67_raised_capacity_closes`). -/
theorem C67_agree_partial (p q : Params) (hp : p.Ok) (hq : q.Ok) (ticket : Bytes)
    (ht : zeroRttSave q = some ticket) (hacc : zeroRttCheck p ticket = .accept)
    (old new : Settings) (ho : ∀ ty, old.get ty = (Settings.ofParams q).get ty)
    (hn : ∀ ty, new.get ty = (Settings.ofParams p).get ty)
    (hcap : q.maxTable = 0 ∨ q.maxTable = p.maxTable) :
    ∀ q0, ∃ q1, handleSettings (.zeroRtt old) q0 new = .ok (.received new, q1) := by
  intro q0
  obtain ⟨t', ht', hc⟩ := C67_server_partial p q hq
  rw [ht] at ht'; cases ht'
  rw [hacc] at hc
  have hle : q.maxTable ≤ p.maxTable ∧ q.maxBlocked ≤ p.maxBlocked ∧
      (q.webTransport → p.webTransport) ∧ (q.datagram → p.datagram) := by
    by_cases h : q.maxTable ≤ p.maxTable ∧ q.maxBlocked ≤ p.maxBlocked ∧
      (q.webTransport → p.webTransport) ∧ (q.datagram → p.datagram)
    · exact h
    · rw [if_neg h] at hc; cases hc
  obtain ⟨o1, o2, o3, o4, o5⟩ := get_ofParams q
  obtain ⟨n1, n2, n3, n4, n5⟩ := get_ofParams p
  rw [← ho] at o1 o2 o3 o4 o5
  rw [← hn] at n1 n2 n3 n4 n5
  have h4 : ¬ q.webTransport.toNat > p.webTransport.toNat := by
    have h := hle.2.2.1
    revert h
    generalize q.webTransport = a
    generalize p.webTransport = b
    revert a b; decide
  have h5 : ¬ q.datagram.toNat > p.datagram.toNat := by
    have h := hle.2.2.2
    revert h
    generalize q.datagram = a
    generalize p.datagram = b
    revert a b; decide
  have hset : setQpackSettings new = .ok (p.maxTable, p.maxBlocked) := by
    unfold setQpackSettings
    have := hp.1; have := hp.2
    rw [n2, n3, if_neg (by omega), if_neg (by omega)]
  have hcmp : ∃ c, compareSettings old new comparedSettings false = .ok c := by
    have e2 : ¬ q.maxTable > p.maxTable := by omega
    have e3 : ¬ q.maxBlocked > p.maxBlocked := by omega
    simp only [comparedSettings, compareSettings, o1, o2, o3, o4, o5, n1, n2, n3, n4, n5, if_true,
      if_neg e2, if_neg e3, if_neg h4, if_neg h5]
    rcases hcap with h0 | h0
    · simp only [h0, ne_eq, not_true_eq_false, if_false]
      split <;> split <;> split <;> split <;> exact ⟨_, rfl⟩
    · simp only [h0, if_true]
      split <;> split <;> split <;> exact ⟨_, rfl⟩
  obtain ⟨c, hcmp⟩ := hcmp
  unfold handleSettings
  simp only [hcmp]
  cases c
  · exact ⟨_, rfl⟩
  · refine ⟨(p.maxTable, p.maxBlocked), ?_⟩
    show (setQpackSettings new >>= fun q' => pure (RemoteSettings.received new, q')) = _
    rw [hset]; rfl

/-- A server that was given a larger table accepts 0-RTT with its old tickets, and
the client then closes the connection because the capacity changed (RFC 9204
§3.2.3 requires the server to keep the value). -/
theorem C67_raised_capacity_closes :
    ∃ (p q : Params) (ticket : Bytes), p.Ok ∧ q.Ok ∧ zeroRttSave q = some ticket ∧
      zeroRttCheck p ticket = .accept ∧
      handleSettings (.zeroRtt (Settings.ofParams q)) (q.maxTable, q.maxBlocked) (Settings.ofParams p) =
        .error .qpackDecoderStream :=
  ⟨⟨8192, 20, false, false, false⟩, ⟨4096, 20, false, false, false⟩,
    [0x01, 0x01, 0x50, 0x00, 0x07, 0x14], by decide +kernel⟩

/-- Extended CONNECT can be withdrawn: the server accepts 0-RTT with a ticket from
when it was offered, and the client does not notice.  (RFC 9114 §7.2.4.2: "A
server MUST NOT reduce any limits or alter any values that might be violated by
the client with its 0-RTT data.") -/
theorem C67_connect_forgotten :
    ∃ (p q : Params) (ticket : Bytes), q.connect = true ∧ p.connect = false ∧
      zeroRttSave q = some ticket ∧ zeroRttCheck p ticket = .accept ∧
      handleSettings (.zeroRtt (Settings.ofParams q)) (q.maxTable, q.maxBlocked) (Settings.ofParams p) =
        .ok (.received (Settings.ofParams p), p.maxTable, p.maxBlocked) :=
  ⟨⟨4096, 20, false, false, false⟩, ⟨4096, 20, false, false, true⟩,
    [0x01, 0x01, 0x50, 0x00, 0x07, 0x14], by decide +kernel⟩

end Neqo.H3
