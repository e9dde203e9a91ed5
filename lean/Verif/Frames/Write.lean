import Verif.Frames.Body

/-! Writing fields. -/
namespace Neqo.Frm
open Neqo.Codec

theorem varintLen_eq {v : Nat} (h : v < 2 ^ 62) :
    varintLen v = some (if v < 64 then 1 else if v < 16384 then 2 else if v < 2 ^ 30 then 4 else 8) := by
  unfold varintLen
  simp only [Nat.shiftLeft_eq, Nat.one_mul]
  norm_num
  repeat' split
  all_goals (first | rfl | (exfalso; omega))

theorem ev_ok {v : Nat} (h : v < 2 ^ 62) : ∃ e, ev v = .ok e ∧ IsVar v e ∧ varintLen v = some e.length := by
  obtain ⟨e, h1, h2⟩ := encodeVarint_decode h
  refine ⟨e, by unfold ev; rw [h1], ?_, by rw [← encodeVarint_length, h1]; rfl⟩
  obtain ⟨e', h3, h4⟩ := var_dec (by simpa using h2 [] : decodeVarint e = some (v, []))
  rw [List.append_nil] at h4
  rw [h4]; exact h3

theorem lv_ok {v : Nat} (h : v < 2 ^ 62) : ∃ e n, ev v = .ok e ∧ IsVar v e ∧ lv v = .ok n ∧ n = e.length := by
  obtain ⟨e, h1, h2, h3⟩ := ev_ok h
  exact ⟨e, _, h1, h2, by unfold lv; rw [h3], rfl⟩

theorem IsVar.min {v n : Nat} {e : Bytes} (h : IsVar v e) (hn : varintLen v = some n) : n ≤ e.length := by
  rw [varintLen_eq h.lt] at hn
  cases hn
  obtain ⟨k, hk, hl, hv, _⟩ := h
  rw [hl]
  have hk4 : k = 0 ∨ k = 1 ∨ k = 2 ∨ k = 3 := by omega
  rcases hk4 with rfl | rfl | rfl | rfl <;> norm_num at hv ⊢ <;> (repeat' split) <;> omega

theorem evs_ok {vs : List Nat} (h : ∀ v ∈ vs, v < 2 ^ 62) :
    ∃ e n, evs vs = .ok e ∧ lvs vs = .ok n ∧ n = e.length ∧ Fields (vs.map .var) e ∧
      ∀ x, Fields (vs.map .var) x → n ≤ x.length := by
  induction vs with
  | nil => exact ⟨[], 0, rfl, rfl, rfl, rfl, fun _ _ => Nat.zero_le _⟩
  | cons v vs ih =>
    obtain ⟨e, n, h1, h2, h3, h4, h5⟩ := ih (fun v hv => h v (List.mem_cons_of_mem _ hv))
    obtain ⟨e', g1, g2, g3⟩ := ev_ok (h v List.mem_cons_self)
    refine ⟨e' ++ e, e'.length + n, ?_, ?_, by rw [h3, List.length_append], ⟨e', e, g2, h4, rfl⟩, ?_⟩
    · unfold evs
      simp only [Except.bind_eq_ok, Except.pure_eq_ok]
      exact ⟨_, g1, _, h1, rfl⟩
    · unfold lvs
      simp only [Except.bind_eq_ok, Except.pure_eq_ok]
      exact ⟨_, by unfold lv; rw [g3], _, h2, rfl⟩
    · rintro x ⟨x1, x2, hx1, hx2, rfl⟩
      rw [List.length_append]
      have := IsVar.min hx1 g3
      have := h5 x2 hx2
      omega

theorem shortVar_len {c : Nat} {e : Bytes} (hc : c < 16384) (h : IsVar c e) :
    ShortVar c e ↔ varintLen c = some e.length := by
  rw [varintLen_eq h.lt]
  constructor
  · rintro ⟨_, h1, h2⟩
    have h3 := h.min (varintLen_eq h.lt)
    congr 1
    split
    · rw [h1 ‹_›]
    · rw [if_neg ‹_›, if_pos hc] at h3
      omega
  · intro h1
    have h2 : e.length = _ := (Option.some.inj h1).symm
    refine ⟨h, fun hl => by rw [h2, if_pos hl], ?_⟩
    rw [h2]
    split
    · omega
    · simp

theorem code_small (t : FType) : t.code < 16384 := by
  cases t <;> (try rename_i b; cases b) <;> (try rename_i b; cases b) <;> (try rename_i b; cases b) <;> decide

theorem typeBytes (t : FType) : ∃ e, ev t.code = .ok e ∧ ShortVar t.code e ∧ e.length = (if t.code < 64 then 1 else 2) := by
  have hs := code_small t
  obtain ⟨e, h1, h2, h3⟩ := ev_ok (v := t.code) (by omega)
  refine ⟨e, h1, (shortVar_len hs h2).mpr h3, ?_⟩
  rw [varintLen_eq (by omega)] at h3
  rw [← Option.some.inj h3]
  split
  · rfl
  · simp

theorem ShortVar.len {c : Nat} {e : Bytes} (h : ShortVar c e) : e.length = if c < 64 then 1 else 2 := by
  obtain ⟨h1, h2, h3⟩ := h
  split
  · exact h2 ‹_›
  · have := h1.min (varintLen_eq h1.lt)
    rw [if_neg ‹_›] at this
    split at this
    · omega
    · split at this <;> omega

theorem evs_type {t : FType} {vs : List Nat} (h : ∀ v ∈ vs, v < 2 ^ 62) :
    ∃ et e, evs (t.code :: vs) = .ok (et ++ e) ∧ lvs (t.code :: vs) = .ok (et.length + e.length) ∧
      evs vs = .ok e ∧ lvs vs = .ok e.length ∧ ShortVar t.code et ∧ Fields (vs.map .var) e ∧
      ∀ x, Fields (vs.map .var) x → e.length ≤ x.length := by
  have hs := code_small t
  obtain ⟨e, n, g1, g2, g3, g4, g5⟩ := evs_ok h
  obtain ⟨et, t1, t2, _⟩ := typeBytes t
  subst g3
  refine ⟨et, e, ?_, ?_, g1, g2, t2, g4, g5⟩
  · unfold evs
    simp only [Except.bind_eq_ok, Except.pure_eq_ok]
    exact ⟨_, t1, _, g1, rfl⟩
  · unfold lvs
    simp only [Except.bind_eq_ok, Except.pure_eq_ok]
    exact ⟨_, by unfold lv; rw [(shortVar_len hs t2.1).mp t2], _, g2, rfl⟩

/-- A form of a frame that has only one. -/
theorem wire_only {f : Frame} {c : Nat} {fs : List Field} {w : Bytes} (hl : f.layout = (c, fs))
    (hn : f.layoutNoOffset = none) : Wire f w ↔ ∃ t b, ShortVar c t ∧ Fields fs b ∧ w = t ++ b := by
  constructor
  · rintro ⟨l, hl' | hl', h⟩
    · rw [hl', hl] at h; exact h
    · rw [hn] at hl'; cases hl'
  · intro h
    exact ⟨_, Or.inl rfl, by rw [hl]; exact h⟩

/-- Writing integers after a type. -/
theorem varFrame_ok {rem : Nat} {t : FType} {vs : List Nat} {f : Frame} (hl : f.layout = (t.code, vs.map .var))
    (hn : f.layoutNoOffset = none) (hv : f.Valid) (h : ∀ v ∈ vs, v < 2 ^ 62) :
    Writes rem (writeVarintFrame rem (t.code :: vs)) f := by
  obtain ⟨et, e, h1, h2, _, _, h3, h4, h5⟩ := evs_type (t := t) h
  unfold writeVarintFrame Writes
  rw [h1, h2]
  simp only [bind, Except.bind, pure, Except.pure]
  by_cases hr : et.length + e.length ≤ rem
  · rw [if_pos hr]
    refine ⟨_, rfl, ?_, (fun h => by cases h)⟩
    intro w hw
    cases hw
    exact ⟨hv, (wire_only hl hn).mpr ⟨_, _, h3, h4, rfl⟩, by rw [List.length_append]; omega⟩
  · rw [if_neg hr]
    refine ⟨_, rfl, (fun w h => by cases h), fun _ w hw => ?_⟩
    obtain ⟨x, y, hx, hy, rfl⟩ := (wire_only hl hn).mp hw
    have a := h5 y hy
    rw [List.length_append, hx.len, ← h3.len]
    omega

theorem evv_ok {b : Bytes} (h : b.length < 2 ^ 62) :
    ∃ l, IsVar b.length l ∧ varintLen b.length = some l.length ∧ evv b = .ok (l ++ b) := by
  obtain ⟨e, h1, h2, h3⟩ := ev_ok h
  refine ⟨e, h2, h3, ?_⟩
  unfold ev at h1
  unfold evv encodeVvec
  cases he : encodeVarint b.length with
  | none => rw [he] at h1; cases h1
  | some x => rw [he] at h1; cases h1; rfl

theorem varintLen_le {v n : Nat} (h : v < 2 ^ 62) (hn : varintLen v = some n) : 1 ≤ n ∧ n ≤ 8 := by
  rw [varintLen_eq h] at hn
  cases hn
  repeat' split
  all_goals omega

theorem fields_raw {b x : Bytes} : Fields [.raw b] x ↔ x = b := by
  constructor
  · rintro ⟨_, _, rfl, rfl, rfl⟩; simp
  · rintro rfl; exact ⟨x, [], rfl, rfl, by simp⟩

theorem fields_one {f : Field} {x : Bytes} : Fields [f] x ↔ f.Is x := by
  constructor
  · rintro ⟨y, _, h, rfl, rfl⟩; simpa using h
  · intro h; exact ⟨x, [], h, rfl, by simp⟩

theorem counted_min {b x : Bytes} {n : Nat} (h : (Field.counted b).Is x) (hn : varintLen b.length = some n) :
    n + b.length ≤ x.length := by
  obtain ⟨l, hl, rfl⟩ := h
  have := hl.min hn
  rw [List.length_append]; omega

theorem ev_zero : ev 0 = .ok [0] := rfl

theorem ackFrequency_ok {rem seq tolerance delay : Nat} (h1 : seq < 2 ^ 62) (h2 : 0 < tolerance)
    (h3 : tolerance < 2 ^ 62) (h4 : delay < 2 ^ 62) :
    Writes rem (writeAckFrequency rem seq tolerance delay) (.ackFrequency seq tolerance delay false) := by
  have hb : ∀ v ∈ [seq, tolerance, delay], v < 2 ^ 62 := by
    intro v hv
    simp only [List.mem_cons, List.not_mem_nil, or_false] at hv
    rcases hv with rfl | rfl | rfl <;> assumption
  obtain ⟨et, e, _, _, g1, g2, g3, g4, g5⟩ := evs_type (t := .ackFrequency) hb
  obtain ⟨et', e', k1, k2, k3, k4, k5, _, _⟩ := evs_type (t := .ackFrequency) (vs := [seq, tolerance, delay, 0]) (by
    intro v hv
    rcases List.mem_append.mp (show v ∈ [seq, tolerance, delay] ++ [0] from hv) with hv | hv
    · exact hb v hv
    · rw [List.mem_singleton.mp hv]; omega)
  have he : e' = e ++ [0] := by
    have : evs [seq, tolerance, delay, 0] = .ok (e ++ [0]) := by
      simp only [evs, Except.bind_eq_ok, Except.pure_eq_ok] at g1 ⊢
      obtain ⟨a, ha, b, ⟨b1, hb1, b2, ⟨b3, hb3, b4, hb4, rfl⟩, rfl⟩, rfl⟩ := g1
      cases hb4
      exact ⟨_, ha, _, ⟨_, hb1, _, ⟨_, hb3, _, ⟨_, ev_zero, _, rfl, rfl⟩, rfl⟩, rfl⟩, by simp⟩
    exact Except.ok.inj (k3.symm.trans this)
  subst he
  have hl : (Frame.ackFrequency seq tolerance delay false).layout =
      (FType.ackFrequency.code, [seq, tolerance, delay].map Field.var ++ [.raw [0]]) := rfl
  unfold writeAckFrequency writeVarintFrame Writes
  rw [k1, k2]
  simp only [bind, Except.bind, pure, Except.pure]
  by_cases hr : et'.length + (e ++ [0]).length ≤ rem
  · rw [if_pos hr]
    refine ⟨_, rfl, ?_, (fun h => by cases h)⟩
    intro w hw
    cases hw
    refine ⟨(Nat.pos_iff_ne_zero.mp h2 : tolerance ≠ 0), (wire_only hl rfl).mpr ⟨_, _, k5, ?_, rfl⟩,
      by rw [List.length_append]; omega⟩
    exact fields_append.mpr ⟨_, _, g4, fields_raw.mpr rfl, rfl⟩
  · rw [if_neg hr]
    refine ⟨_, rfl, (fun w h => by cases h), fun _ w hw => ?_⟩
    obtain ⟨x, y, hx, hy, rfl⟩ := (wire_only hl rfl).mp hw
    obtain ⟨y1, y2, hy1, hy2, rfl⟩ := fields_append.mp hy
    rw [fields_raw.mp hy2]
    have a := g5 y1 hy1
    simp only [List.length_append, hx.len, ← k5.len] at hr ⊢
    omega

theorem handshakeDone_ok {rem : Nat} : Writes rem (writeHandshakeDone rem) .handshakeDone := by
  obtain ⟨e, h1, h2, h3⟩ := typeBytes .handshakeDone
  have h4 : e.length = 1 := h3
  unfold writeHandshakeDone Writes
  rw [h1]
  simp only [bind, Except.bind, pure, Except.pure]
  by_cases hr : 1 ≤ rem
  · rw [if_pos hr]
    refine ⟨_, rfl, ?_, (fun h => by cases h)⟩
    intro w hw
    cases hw
    exact ⟨trivial, (wire_only (fs := []) rfl rfl).mpr ⟨_, [], h2, rfl, by simp⟩, by omega⟩
  · rw [if_neg hr]
    refine ⟨_, rfl, (fun w h => by cases h), fun _ w hw => ?_⟩
    obtain ⟨x, y, hx, hy, rfl⟩ := (wire_only (c := 0x1e) (fs := []) rfl rfl).mp hw
    have := hx.len
    rw [if_pos (by omega)] at this
    rw [List.length_append]; omega

theorem retire_ok {rem seq : Nat} (h : seq < 2 ^ 62) :
    Writes rem (writeRetire rem seq) (.retireConnectionId seq) := by
  have := varFrame_ok (rem := rem) (t := .retireConnectionId) (vs := [seq]) (f := .retireConnectionId seq) rfl rfl
    trivial (by intro v hv; rw [List.mem_singleton.mp hv]; exact h)
  have e : writeRetire rem seq = writeVarintFrame rem [FType.retireConnectionId.code, seq] := by
    obtain ⟨e, n, h1, _, h2, _⟩ := lv_ok h
    unfold writeRetire writeVarintFrame lvs lvs lvs
    rw [h2]
    have h3 : lv FType.retireConnectionId.code = .ok 1 := rfl
    rw [h3]
    simp only [bind, Except.bind, pure, Except.pure, Nat.add_zero]
    by_cases hr : rem < 1 + n
    · rw [if_pos hr, if_neg (by omega)]
    · rw [if_neg hr, if_pos (by omega)]
  rw [e]
  exact this

theorem path_ok {rem : Nat} {t : FType} {dat : Bytes} {f : Frame} (hd : dat.length = 8) (ht : t.code < 64)
    (hl : f.layout = (t.code, [.raw dat])) (hn : f.layoutNoOffset = none) (hv : f.Valid) :
    Writes rem (writePath rem t dat) f := by
  obtain ⟨e, h1, h2, h3⟩ := typeBytes t
  rw [if_pos ht] at h3
  unfold writePath Writes
  rw [h1]
  simp only [bind, Except.bind, pure, Except.pure]
  by_cases hr : rem < 9
  · rw [if_pos hr]
    refine ⟨_, rfl, (fun w h => by cases h), fun _ w hw => ?_⟩
    obtain ⟨x, y, hx, hy, rfl⟩ := (wire_only hl hn).mp hw
    have := hx.len
    rw [if_pos ht] at this
    rw [List.length_append, fields_raw.mp hy]; omega
  · rw [if_neg hr]
    refine ⟨_, rfl, ?_, (fun h => by cases h)⟩
    intro w hw
    cases hw
    exact ⟨hv, (wire_only hl hn).mpr ⟨_, _, h2, fields_raw.mpr rfl, rfl⟩, by rw [List.length_append]; omega⟩

theorem encodeVec_one {b : Bytes} (h : b.length < 256) : ∃ l : UInt8, l.toNat = b.length ∧ encodeVec 1 b = some (l :: b) := by
  unfold encodeVec encodeUint
  rw [if_pos (by decide)]
  refine ⟨UInt8.ofNat b.length, by simp; omega, by simp [beBytes]⟩

theorem newConnectionId_ok {rem seq : Nat} {cid token : Bytes} (h : seq < 2 ^ 62) (hc : 1 ≤ cid.length)
    (hc' : cid.length ≤ 20) (ht : token.length = 16) :
    Writes rem (writeNewConnectionId rem seq cid token) (.newConnectionId seq 0 cid token) := by
  have hb : ∀ v ∈ [seq, 0], v < 2 ^ 62 := by
    intro v hv
    simp only [List.mem_cons, List.not_mem_nil, or_false] at hv
    rcases hv with rfl | rfl
    · exact h
    · omega
  obtain ⟨et, e, g1, _, _, g2, g3, g4, g5⟩ := evs_type (t := .newConnectionId) hb
  obtain ⟨l, hl1, hl2⟩ := encodeVec_one (b := cid) (by omega)
  obtain ⟨es, n, s1, _, s2, s3⟩ := lv_ok h
  have hn : e.length = n + 1 := by
    unfold lvs lvs lvs at g2
    rw [s2] at g2
    have := Except.ok.inj (show (Except.ok (n + (1 + 0)) : Except Err Nat) = .ok e.length from g2)
    omega
  have hl : (Frame.newConnectionId seq 0 cid token).layout =
      (FType.newConnectionId.code, [seq, 0].map Field.var ++ [.short cid, .raw token]) := rfl
  have het : et.length = 1 := g3.len
  unfold writeNewConnectionId Writes
  rw [s2, g1, hl2]
  simp only [bind, Except.bind, pure, Except.pure]
  by_cases hr : rem < 1 + n + 1 + 1 + cid.length + 16
  · rw [if_pos hr]
    refine ⟨_, rfl, (fun w h => by cases h), fun _ w hw => ?_⟩
    obtain ⟨x, y, hx, hy, rfl⟩ := (wire_only hl rfl).mp hw
    obtain ⟨y1, y2, hy1, ⟨y3, y4, ⟨l', _, rfl⟩, hy4, rfl⟩, rfl⟩ := fields_append.mp hy
    have a := g5 y1 hy1
    have b := hx.len.trans g3.len.symm
    rw [fields_raw.mp hy4]
    simp only [List.length_append, List.length_cons]
    omega
  · rw [if_neg hr]
    refine ⟨_, rfl, ?_, (fun h => by cases h)⟩
    intro w hw
    cases hw
    refine ⟨⟨Nat.zero_le _, hc, hc', ht⟩, (wire_only hl rfl).mpr ⟨et, e ++ ((l :: cid) ++ token), g3, ?_, by simp⟩,
      by simp only [List.length_append, List.length_cons]; omega⟩
    exact fields_append.mpr ⟨_, _, g4, ⟨_, _, ⟨l, hl1, rfl⟩, fields_raw.mpr rfl, rfl⟩, rfl⟩

theorem newToken_ok {rem : Nat} {token : Bytes} (h : token ≠ []) (hl' : token.length < 2 ^ 62) :
    Writes rem (writeNewToken rem token) (.newToken token) := by
  obtain ⟨et, t1, t2, t3⟩ := typeBytes .newToken
  have het : et.length = 1 := t3
  obtain ⟨l, l1, l2, l3⟩ := evv_ok hl'
  have hl : (Frame.newToken token).layout = (FType.newToken.code, [.counted token]) := rfl
  unfold writeNewToken lv Writes
  rw [l2, t1, l3]
  simp only [bind, Except.bind, pure, Except.pure]
  by_cases hr : 1 + (l.length + token.length) ≤ rem
  · rw [if_pos hr]
    refine ⟨_, rfl, ?_, (fun h => by cases h)⟩
    intro w hw
    cases hw
    exact ⟨h, (wire_only hl rfl).mpr ⟨et, l ++ token, t2, fields_one.mpr ⟨l, l1, rfl⟩, rfl⟩,
      by simp only [List.length_append]; omega⟩
  · rw [if_neg hr]
    refine ⟨_, rfl, (fun w h => by cases h), fun _ w hw => ?_⟩
    obtain ⟨x, y, hx, hy, rfl⟩ := (wire_only hl rfl).mp hw
    have a := counted_min (fields_one.mp hy) l2
    have b := hx.len.trans t2.len.symm
    rw [List.length_append]; omega

/-! Frames that take as much data as fits -/

theorem varintLen_mono {a b n m : Nat} (h : a ≤ b) (hb : b < 2 ^ 62) (hn : varintLen a = some n) (hm : varintLen b = some m) :
    n ≤ m := by
  rw [varintLen_eq (by omega)] at hn
  rw [varintLen_eq hb] at hm
  cases hn; cases hm
  repeat' split
  all_goals omega

theorem varintLen_ex {v : Nat} (h : v < 2 ^ 62) : ∃ n, varintLen v = some n := ⟨_, varintLen_eq h⟩

theorem crypto_ok {rem off : Nat} {dat : Bytes} (h : off + dat.length < 2 ^ 62) :
    ∃ o, writeCrypto rem off dat = .ok o ∧
      (∀ w n, o = some (w, n) → n ≤ dat.length ∧ (dat ≠ [] → 0 < n) ∧ (Frame.crypto off (dat.take n)).Valid ∧
        Wire (.crypto off (dat.take n)) w ∧ w.length ≤ rem) ∧
      (o = none → dat ≠ [] → ∀ w n, 0 < n → Wire (.crypto off (dat.take n)) w → rem < w.length) := by
  obtain ⟨et, e, g1, _, _, g2, g3, g4, g5⟩ := evs_type (t := .crypto) (vs := [off]) (by
    intro v hv; rw [List.mem_singleton.mp hv]; omega)
  obtain ⟨es, n0, s1, s0, s2, s3⟩ := lv_ok (v := off) (by omega)
  have hn : e.length = n0 := by
    unfold lvs lvs at g2
    rw [s2] at g2
    have := Except.ok.inj (show (Except.ok (n0 + 0) : Except Err Nat) = .ok e.length from g2)
    omega
  have het : et.length = 1 := g3.len
  have hl : ∀ n, (Frame.crypto off (dat.take n)).layout =
      (FType.crypto.code, [off].map Field.var ++ [.counted (dat.take n)]) := fun _ => rfl
  unfold writeCrypto
  rw [s2]
  simp only [bind, Except.bind, pure, Except.pure]
  by_cases hr : rem < 1 + n0 + 1 + 1
  · rw [if_pos hr]
    refine ⟨_, rfl, (fun w n h => by cases h), fun _ hd w n h0 hw => ?_⟩
    obtain ⟨x, y, hx, hy, rfl⟩ := (wire_only (hl n) rfl).mp hw
    obtain ⟨y1, y2, hy1, hy2, rfl⟩ := fields_append.mp hy
    have hd' : 0 < dat.length := List.length_pos_iff.mpr hd
    have ht : (dat.take n).length < 2 ^ 62 := by rw [List.length_take]; omega
    obtain ⟨m, hm⟩ := varintLen_ex ht
    have a := counted_min (fields_one.mp hy2) hm
    have b := hx.len.trans g3.len.symm
    have c := g5 y1 hy1
    have d := varintLen_le ht hm
    rw [List.length_take] at a
    simp only [List.length_append]
    omega
  · rw [if_neg hr]
    have hL : min dat.length (rem - (1 + n0 + 1)) < 2 ^ 62 := by omega
    obtain ⟨m, hm⟩ := varintLen_ex hL
    have hm1 := varintLen_le hL hm
    have hlv : lv (min dat.length (rem - (1 + n0 + 1))) = .ok m := by unfold lv; rw [hm]
    rw [hlv]
    simp only
    have hroom : ¬ rem < 1 + n0 + 1 + m - 1 := by
      have hm' := hm
      rw [varintLen_eq hL] at hm'
      have := (Option.some.inj hm').symm
      repeat' split at this
      all_goals omega
    rw [if_neg hroom, g1]
    have ht : (dat.take (min dat.length (rem - (1 + n0 + 1 + m - 1)))).length < 2 ^ 62 := by
      rw [List.length_take]; omega
    obtain ⟨l, l1, l2, l3⟩ := evv_ok ht
    rw [l3]
    simp only
    refine ⟨_, rfl, ?_, (fun h => by cases h)⟩
    intro w n hw
    cases hw
    refine ⟨by omega, ?_, ?_, (wire_only (hl _) rfl).mpr ⟨et, e ++ (l ++ _), g3,
      fields_append.mpr ⟨_, _, g4, fields_one.mpr ⟨l, l1, rfl⟩, rfl⟩, by simp⟩, ?_⟩
    · intro hd
      have hd' : 0 < dat.length := List.length_pos_iff.mpr hd
      have hm' := hm
      rw [varintLen_eq hL] at hm'
      have := (Option.some.inj hm').symm
      repeat' split at this
      all_goals omega
    · show off + (dat.take _).length < 2 ^ 62
      rw [List.length_take]; omega
    · have a := varintLen_mono (a := (dat.take (min dat.length (rem - (1 + n0 + 1 + m - 1)))).length)
        (by rw [List.length_take]; omega) hL l2 hm
      simp only [List.length_append, List.length_take] at a ⊢
      omega

theorem streamType_code (fin off fill : Bool) : (streamType fin off fill).code =
    0x08 + (if off then 4 else 0) + (if fill then 0 else 2) + (if fin then 1 else 0) := by
  cases fin <;> cases off <;> cases fill <;> rfl

theorem evData_ok {fill : Bool} {dat : Bytes} (h : dat.length < 2 ^ 62) :
    ∃ v n, evData fill dat = .ok v ∧ (if fill then Field.raw dat else .counted dat).Is v ∧
      varintLen dat.length = some n ∧ v.length = (if fill then 0 else n) + dat.length := by
  obtain ⟨l, l1, l2, l3⟩ := evv_ok h
  cases fill with
  | true => exact ⟨dat, _, rfl, rfl, l2, by simp⟩
  | false => exact ⟨l ++ dat, _, l3, ⟨l, l1, rfl⟩, l2, by simp⟩

theorem streamBytes_ok {id off n : Nat} {dat : Bytes} {fin fill : Bool} (hi : id < 2 ^ 62)
    (h : off + dat.length < 2 ^ 62) (hn : streamOverhead id off = .ok n) :
    ∃ w m, streamBytes id off dat fin fill = .ok w ∧ Wire (.stream id off dat fin fill) w ∧
      varintLen dat.length = some m ∧ w.length = n + (if fill then 0 else m) + dat.length := by
  obtain ⟨et, e, g1, _, _, g2, g3, g4, g5⟩ := evs_type (t := streamType fin (decide (off > 0)) fill) (vs := [id]) (by
    intro v hv; rw [List.mem_singleton.mp hv]; omega)
  obtain ⟨o, no, o1, o2, o3, o4, _⟩ := evs_ok (vs := if off > 0 then [off] else []) (by
    intro v hv
    split at hv
    · rw [List.mem_singleton.mp hv]; omega
    · cases hv)
  obtain ⟨v, m, v1, v2, v3, v4⟩ := evData_ok (fill := fill) (dat := dat) (by omega)
  obtain ⟨es, n0, _, _, s2, _⟩ := lv_ok hi
  have hid : e.length = n0 := by
    unfold lvs lvs at g2
    rw [s2] at g2
    have := Except.ok.inj (show (Except.ok (n0 + 0) : Except Err Nat) = .ok e.length from g2)
    omega
  have hn' : n = 1 + n0 + no := by
    unfold streamOverhead at hn
    rw [s2, o2] at hn
    exact (Except.ok.inj (show (Except.ok (1 + n0 + no) : Except Err Nat) = .ok n from hn)).symm
  have het : et.length = 1 := by
    rw [g3.len, if_pos]
    rw [streamType_code]
    cases fin <;> cases fill <;> cases (decide (off > 0)) <;> decide
  refine ⟨et ++ e ++ o ++ v, m, ?_, ?_, v3, ?_⟩
  · unfold streamBytes
    simp only [Except.bind_eq_ok, Except.pure_eq_ok]
    exact ⟨_, g1, _, o1, _, v1, rfl⟩
  · rw [streamType_code] at g3
    by_cases ho : off > 0
    · rw [if_pos ho] at o4
      rw [decide_eq_true ho] at g3
      refine ⟨_, Or.inl rfl, et, e ++ (o ++ v), g3, ?_, by simp⟩
      exact fields_append.mpr ⟨e, o ++ v, g4, fields_append.mpr ⟨o, v, o4, fields_one.mpr v2, rfl⟩, rfl⟩
    · rw [if_neg ho] at o4
      cases o4
      rw [decide_eq_false ho] at g3
      have h0 : off = 0 := by omega
      subst h0
      refine ⟨_, Or.inr rfl, et, e ++ v, g3, ?_, by simp⟩
      exact fields_append.mpr ⟨e, v, g4, fields_one.mpr v2, rfl⟩
  · simp only [List.length_append, v4]
    omega

theorem overhead_ex {id off : Nat} (hi : id < 2 ^ 62) (ho : off < 2 ^ 62) : ∃ n, streamOverhead id off = .ok n ∧
    ∀ dat fin fill w, Wire (.stream id off dat fin fill) w → n + dat.length ≤ w.length := by
  obtain ⟨ei, n0, i1, i2, s2, s3⟩ := lv_ok hi
  obtain ⟨eo, n1, o1, o2, s4, s5⟩ := lv_ok ho
  have hv0 : varintLen id = some n0 := by
    unfold lv at s2
    cases h : varintLen id with
    | none => rw [h] at s2; cases s2
    | some x => rw [h] at s2; cases s2; rfl
  have hv1 : varintLen off = some n1 := by
    unfold lv at s4
    cases h : varintLen off with
    | none => rw [h] at s4; cases s4
    | some x => rw [h] at s4; cases s4; rfl
  have hdat : ∀ (dat : Bytes) (fill : Bool) (y : Bytes), Fields [if fill then Field.raw dat else .counted dat] y →
      dat.length ≤ y.length := by
    intro dat fill y h
    have h := fields_one.mp h
    cases fill with
    | true => rw [show y = dat from h]
    | false => obtain ⟨l, _, rfl⟩ := h; rw [List.length_append]; omega
  have hlen : ∀ {c : Nat} {t : Bytes}, ShortVar c t → 1 ≤ t.length := by
    intro c t h
    rw [h.len]; split <;> omega
  unfold streamOverhead
  rw [s2]
  by_cases h0 : off > 0
  · rw [if_pos h0]
    refine ⟨1 + n0 + (n1 + 0), by unfold lvs lvs; rw [s4]; rfl, ?_⟩
    rintro dat fin fill w ⟨l, hl | hl, t, b, ht, hb, rfl⟩
    · subst hl
      obtain ⟨x, y, hx, ⟨x2, y2, hx2, hy2, rfl⟩, rfl⟩ := hb
      have a := IsVar.min hx hv0
      have b := IsVar.min hx2 hv1
      have c := hdat _ _ _ hy2
      have d := hlen ht
      simp only [List.length_append]
      omega
    · unfold Frame.layoutNoOffset at hl
      split at hl
      · rename_i h; cases h; omega
      · cases hl
  · rw [if_neg h0]
    refine ⟨1 + n0 + 0, rfl, ?_⟩
    have h0' : off = 0 := by omega
    subst h0'
    rintro dat fin fill w ⟨l, hl | hl, t, b, ht, hb, rfl⟩
    · subst hl
      obtain ⟨x, y, hx, ⟨x2, y2, hx2, hy2, rfl⟩, rfl⟩ := hb
      have a := IsVar.min hx hv0
      have c := hdat _ _ _ hy2
      have d := hlen ht
      simp only [List.length_append]
      omega
    · have hl := Option.some.inj hl
      subst hl
      obtain ⟨x, y, hx, hy, rfl⟩ := hb
      have a := IsVar.min hx hv0
      have c := hdat _ _ _ hy
      have d := hlen ht
      simp only [List.length_append]
      omega

theorem lengthAndFill_ok {n space : Nat} (h : n < 2 ^ 62) : ∃ len fill, lengthAndFill n space = .ok (len, fill) ∧
    len = min n space ∧ (fill = false → ∀ m, varintLen n = some m → m + n ≤ space) := by
  unfold lengthAndFill
  split
  · exact ⟨space, true, rfl, by omega, (fun h => by cases h)⟩
  · have hm : min (space - 1) n = n := by omega
    rw [hm]
    obtain ⟨m, hm'⟩ := varintLen_ex h
    unfold lv
    rw [hm']
    refine ⟨n, _, rfl, by omega, ?_⟩
    intro hf m' hm2
    cases hm2
    have := of_decide_eq_false hf
    omega

theorem stream_ok {rem id off : Nat} {dat : Bytes} {finOff : Option Nat} (hi : id < 2 ^ 62)
    (h : off + dat.length < 2 ^ 62) :
    ∃ o, writeStream rem id off dat finOff = .ok o ∧
      (∀ w n fill, o = some (w, n, fill) → n ≤ dat.length ∧
        ∃ fin, (fin = true ↔ finOff = some (off + n)) ∧ (n = 0 → fin = true) ∧
          Frame.Valid (.stream id off (dat.take n) fin fill) ∧
          Wire (.stream id off (dat.take n) fin fill) w ∧ w.length ≤ rem) ∧
      (o = none → ∀ w n fin fill, n ≤ dat.length → (fin = true ↔ finOff = some (off + n)) → (0 < n ∨ fin = true) →
        Wire (.stream id off (dat.take n) fin fill) w → rem < w.length) := by
  obtain ⟨n0, hn0, hmin⟩ := overhead_ex hi (show off < 2 ^ 62 by omega)
  unfold writeStream
  rw [hn0]
  simp only [bind, Except.bind, pure, Except.pure]
  by_cases hr : n0 > rem
  · rw [if_pos hr]
    refine ⟨_, rfl, (fun w n fill h => by cases h), ?_⟩
    intro _ w n fin fill _ _ _ hw
    have := hmin _ _ _ _ hw
    omega
  · rw [if_neg hr]
    obtain ⟨len, fill, hlf, hlen, hfill⟩ := lengthAndFill_ok (n := dat.length) (space := rem - n0) (by omega)
    rw [hlf]
    simp only
    by_cases h0 : len = 0 ∧ decide (finOff = some (off + len)) = false
    · rw [if_pos h0]
      refine ⟨_, rfl, (fun w n fill h => by cases h), ?_⟩
      intro _ w n fin fill hn hfin h1 hw
      have hm := hmin _ _ _ _ hw
      rw [List.length_take] at hm
      have hne : finOff ≠ some (off + 0) := by
        have := of_decide_eq_false h0.2
        rw [h0.1] at this; exact this
      rcases h1 with h1 | h1
      · omega
      · have hf := hfin.mp h1
        have hn0' : n ≠ 0 := by rintro rfl; exact hne hf
        omega
    · rw [if_neg h0]
      have hdl : (dat.take len).length = len := by rw [List.length_take]; omega
      obtain ⟨w, m, hw1, hw2, hw3, hw4⟩ := streamBytes_ok (fin := decide (finOff = some (off + len))) (fill := fill)
        (dat := dat.take len) hi (by rw [hdl]; omega) hn0
      rw [hw1]
      refine ⟨_, rfl, ?_, (fun h => by cases h)⟩
      intro w' n fill' hw'
      cases hw'
      refine ⟨by omega, _, decide_eq_true_iff, ?_, ?_, hw2, ?_⟩
      · intro hz
        cases hd : decide (finOff = some (off + len)) with
        | true => rfl
        | false => exact absurd ⟨hz, hd⟩ h0
      · show off + (dat.take len).length < 2 ^ 62
        rw [hdl]; omega
      · rw [hw4, hdl]
        cases fill with
        | true => rw [if_pos rfl]; omega
        | false =>
          rw [if_neg (by simp)]
          obtain ⟨md, hmd⟩ := varintLen_ex (show dat.length < 2 ^ 62 by omega)
          have a := hfill rfl md hmd
          have b := varintLen_mono (a := (dat.take len).length) (by rw [hdl]; omega)
            (show dat.length < 2 ^ 62 by omega) hw3 hmd
          omega

theorem datagram_ok {rem : Nat} {dat : Bytes} (h : dat.length < 2 ^ 62) :
    ∃ o, writeDatagram rem dat = .ok o ∧
      (∀ w fill, o = some (w, fill) → Wire (.datagram dat fill) w ∧ w.length ≤ rem) ∧
      (o = none → ∀ w fill, Wire (.datagram dat fill) w → rem < w.length) := by
  unfold writeDatagram
  by_cases hr : dat.length + 1 ≤ rem
  · rw [if_pos hr]
    obtain ⟨l, l1, l2, l3⟩ := evv_ok h
    unfold lv
    rw [l2, l3]
    simp only [bind, Except.bind, pure, Except.pure]
    by_cases hr2 : rem ≥ 1 + l.length + dat.length + 2
    · rw [if_pos hr2]
      obtain ⟨et, t1, t2, t3⟩ := typeBytes (.datagram true)
      have t4 : et.length = 1 := t3
      rw [t1]
      refine ⟨_, rfl, ?_, (fun h => by cases h)⟩
      intro w fill hw
      cases hw
      exact ⟨(wire_only rfl rfl).mpr ⟨et, _, t2, fields_one.mpr ⟨l, l1, rfl⟩, rfl⟩,
        by simp only [List.length_append]; omega⟩
    · rw [if_neg hr2]
      obtain ⟨et, t1, t2, t3⟩ := typeBytes (.datagram false)
      have t4 : et.length = 1 := t3
      rw [t1]
      refine ⟨_, rfl, ?_, (fun h => by cases h)⟩
      intro w fill hw
      cases hw
      exact ⟨(wire_only rfl rfl).mpr ⟨et, _, t2, fields_raw.mpr rfl, rfl⟩,
        by simp only [List.length_append]; omega⟩
  · rw [if_neg hr]
    refine ⟨_, rfl, (fun w fill h => by cases h), ?_⟩
    intro _ w fill hw
    obtain ⟨t, b, ht, hb, rfl⟩ := (wire_only (f := .datagram dat fill) rfl rfl).mp hw
    have h1 : 1 ≤ t.length := List.length_pos_iff.mpr ht.1.ne_nil
    have h2 : dat.length ≤ b.length := by
      have hb := fields_one.mp hb
      cases fill with
      | true => rw [show b = dat from hb]
      | false => obtain ⟨l, _, rfl⟩ := hb; rw [List.length_append]; omega
    rw [List.length_append]; omega

theorem evs_len {vs : List Nat} {e : Bytes} (h : ∀ v ∈ vs, v < 2 ^ 62) (he : evs vs = .ok e) : e.length ≤ 8 * vs.length := by
  induction vs generalizing e with
  | nil => cases he; simp
  | cons v vs ih =>
    simp only [evs, Except.bind_eq_ok, Except.pure_eq_ok] at he
    obtain ⟨a, ha, b, hb, rfl⟩ := he
    have h1 := ih (fun v hv => h v (List.mem_cons_of_mem _ hv)) hb
    obtain ⟨a', h2, h3, _⟩ := ev_ok (h v List.mem_cons_self)
    have h4 : a = a' := Except.ok.inj (ha.symm.trans h2)
    subst h4
    have := h3.length_le
    simp only [List.length_append, List.length_cons]
    omega

theorem ack_bytes_ok {rem m largest delay first : Nat} {ranges : List (Nat × Nat)} {ecn : Option (Nat × Nat × Nat)}
    (h1 : largest < 2 ^ 62) (h2 : delay < 2 ^ 62) (h3 : first < 2 ^ 62) (h4 : ∀ p ∈ ranges, p.1 < 2 ^ 62 ∧ p.2 < 2 ^ 62)
    (h5 : ∀ x y z, ecn = some (x, y, z) → x < 2 ^ 62 ∧ y < 2 ^ 62 ∧ z < 2 ^ 62)
    (hm : maxRanges rem = some m) (hr : ranges.length + 1 ≤ m) :
    ∃ w, ackBytes largest delay first ranges ecn = .ok w ∧ Wire (.ack largest delay first ranges ecn) w ∧
      (Frame.ack largest delay first ranges ecn).Valid ∧ w.length ≤ rem := by
  unfold maxRanges at hm
  split at hm
  · cases hm
  rename_i hrem
  have hm := (Option.some.inj hm).symm
  have hrl : ranges.length ≤ 31 := by omega
  have hrl2 : 16 * ranges.length ≤ rem - usefulAckLen := by
    have : ranges.length ≤ (rem - usefulAckLen) / 16 := by omega
    omega
  have hU : usefulAckLen = 50 := rfl
  have hb1 : ∀ v ∈ [largest, delay, ranges.length, first], v < 2 ^ 62 := by
    intro v hv
    simp only [List.mem_cons, List.not_mem_nil, or_false] at hv
    rcases hv with rfl | rfl | rfl | rfl <;> omega
  have hb2 : ∀ v ∈ ranges.flatMap (fun p => [p.1, p.2]), v < 2 ^ 62 := by
    intro v hv
    obtain ⟨p, hp, hv⟩ := List.mem_flatMap.mp hv
    simp only [List.mem_cons, List.not_mem_nil, or_false] at hv
    rcases hv with rfl | rfl
    · exact (h4 p hp).1
    · exact (h4 p hp).2
  have hb3 : ∀ v ∈ (match ecn with | some (x, y, z) => [x, y, z] | none => []), v < 2 ^ 62 := by
    intro v hv
    cases ecn with
    | none => cases hv
    | some c =>
      obtain ⟨x, y, z⟩ := c
      obtain ⟨a, b, c⟩ := h5 x y z rfl
      simp only [List.mem_cons, List.not_mem_nil, or_false] at hv
      rcases hv with rfl | rfl | rfl <;> assumption
  obtain ⟨et, e, g1, _, g2, _, g3, g4, _⟩ := evs_type (t := if ecn.isSome then .ackEcn else .ack) hb1
  obtain ⟨r, _, r1, _, _, r4, _⟩ := evs_ok hb2
  obtain ⟨c, _, c1, _, _, c4, _⟩ := evs_ok hb3
  have het : et.length = 1 := by rw [g3.len]; cases ecn <;> rfl
  have hlr : r.length ≤ 16 * ranges.length := by
    have := evs_len hb2 r1
    have h : (ranges.flatMap (fun p => [p.1, p.2])).length = 2 * ranges.length := by
      clear * -
      induction ranges with
      | nil => rfl
      | cons p ps ih => simp only [List.flatMap_cons, List.length_append, ih, List.length_cons, List.length_nil]; omega
    omega
  have hlc : c.length ≤ 24 := by
    have := evs_len hb3 c1
    cases ecn <;> simp only [List.length_cons, List.length_nil] at this <;> omega
  have hle : e.length ≤ 25 := by
    simp only [evs, Except.bind_eq_ok, Except.pure_eq_ok] at g2
    obtain ⟨a1, ha1, b1, ⟨a2, ha2, b2, ⟨a3, ha3, b3, ⟨a4, ha4, b4, hb4, rfl⟩, rfl⟩, rfl⟩, rfl⟩ := g2
    cases hb4
    have l : ∀ {v : Nat} {a : Bytes}, v < 2 ^ 62 → ev v = .ok a → a.length ≤ 8 := by
      intro v a hv ha
      obtain ⟨a', x1, x2, _⟩ := ev_ok hv
      have x4 : a = a' := Except.ok.inj (ha.symm.trans x1)
      subst x4
      exact x2.length_le
    have l1 := l h1 ha1
    have l2 := l h2 ha2
    have l4 := l h3 ha4
    have l3 : a3.length = 1 := by
      obtain ⟨a', x1, x2, x3⟩ := ev_ok (show ranges.length < 2 ^ 62 by omega)
      have x4 : a3 = a' := Except.ok.inj (ha3.symm.trans x1)
      subst x4
      rw [varintLen_eq (by omega), if_pos (by omega)] at x3
      exact (Option.some.inj x3).symm
    simp only [List.length_append, List.length_nil]
    omega
  refine ⟨et ++ e ++ r ++ c, ?_, ?_, (show ranges.length < 32768 by omega), by simp only [List.length_append]; omega⟩
  · unfold ackBytes
    simp only [Except.bind_eq_ok, Except.pure_eq_ok]
    exact ⟨_, g1, _, r1, _, c1, rfl⟩
  · refine (wire_only (f := .ack largest delay first ranges ecn) rfl rfl).mpr ⟨et, e ++ r ++ c, ?_, ?_, by simp⟩
    · cases ecn <;> exact g3
    · refine fields_append.mpr ⟨e ++ r, c, fields_append.mpr ⟨e, r, g4, ?_, rfl⟩, ?_, rfl⟩
      · have : (ranges.flatMap (fun p => [p.1, p.2])).map Field.var = ranges.flatMap (fun p => [.var p.1, .var p.2]) := by
          rw [List.map_flatMap]; rfl
        rw [← this]; exact r4
      · cases ecn <;> exact c4

end Neqo.Frm
