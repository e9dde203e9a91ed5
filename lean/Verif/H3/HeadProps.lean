import Verif.H3.Head

/-!
# C70: the kind of a stream is recognised from its head
-/
namespace Neqo.H3
open Neqo.Codec
open Spec (Outcome meaning)

/-! ## Reading one varint -/

theorem headRead_spec : ∀ (fuel : Nat) (d : IncUint) (avail : Bytes) (fin : Bool), VU d →
    avail.length < fuel →
    match uintRest d avail with
    | none => ∃ d' rest, headRead fuel d avail fin = .ok (d', rest, none, fin) ∧ VU d' ∧
        ∀ more, uintRest d (avail ++ more) = uintRest d' more
    | some (v, rest) => ∃ d', headRead fuel d avail fin = .ok (d', rest, some v, fin && rest.isEmpty)
  | 0, _, _, _, _, h => absurd h (by omega)
  | fuel + 1, d, avail, fin, hv, hf => by
    have hn : min d.minRemaining 16 = d.minRemaining ∧ 0 < d.minRemaining := by
      unfold IncUint.minRemaining
      cases hr : d.remaining with
      | none => simp
      | some r => have := hv r hr; simp; omega
    obtain ⟨hn, hpos⟩ := hn
    unfold headRead
    simp only [hn]
    cases avail with
    | nil =>
      have hu : uintRest d [] = none := by
        unfold uintRest
        cases hr : d.remaining with
        | none => simp [C02_decode_nil]
        | some r => have := hv r hr; simp; omega
      rw [hu]
      simp only [List.take_nil, List.drop_nil, if_true, List.length_nil, Nat.zero_le, decide_true,
        Bool.and_true]
      exact ⟨d, [], rfl, hv, fun _ => rfl⟩
    | cons b bs =>
      generalize hA : b :: bs = avail at *
      have hAl : 0 < avail.length := by rw [← hA]; simp
      have hin : avail.take d.minRemaining ≠ [] := by
        intro h
        have := congrArg List.length h
        rw [List.length_take, List.length_nil] at this
        omega
      rw [if_neg hin]
      obtain ⟨d', o, hc, hs, hno⟩ := uint_consume d hv (avail.take d.minRemaining) hin
        (by rw [List.length_take]; omega)
      rw [hc]
      simp only
      have hsplit : avail.take d.minRemaining ++ avail.drop d.minRemaining = avail :=
        List.take_append_drop _ _
      cases o with
      | some v =>
        have := hs v rfl (avail.drop d.minRemaining)
        rw [hsplit] at this
        rw [this]
        simp only [Option.isSome_some, Bool.true_or, if_true]
        refine ⟨d', ?_⟩
        have : decide (avail.length ≤ d.minRemaining) = (avail.drop d.minRemaining).isEmpty := by
          rw [Bool.eq_iff_iff, decide_eq_true_iff, List.isEmpty_iff, List.drop_eq_nil_iff]
        rw [this]
      | none =>
        obtain ⟨hv', hsome, hrest⟩ := hno rfl
        have h1 := hrest (avail.drop d.minRemaining)
        rw [hsplit] at h1
        rw [h1]
        simp only [Option.isSome_none, Bool.false_or]
        by_cases hff : (fin && decide (avail.length ≤ d.minRemaining)) = true
        · rw [if_pos hff]
          rw [Bool.and_eq_true, decide_eq_true_iff] at hff
          have hnil : avail.drop d.minRemaining = [] := by
            rw [List.drop_eq_nil_iff]; exact hff.2
          have htk : avail.take d.minRemaining = avail := List.take_of_length_le hff.2
          rw [hnil] at h1 ⊢
          have hu : uintRest d' [] = none := by
            unfold uintRest
            cases hr : d'.remaining with
            | none => simp [hr] at hsome
            | some r => have := hv' r hr; simp; omega
          rw [hu]
          refine ⟨d', [], by simp [hff.1, hff.2], hv', fun more => ?_⟩
          have := hrest more
          rwa [htk] at this
        · rw [if_neg hff]
          have ih := headRead_spec fuel d' (avail.drop d.minRemaining) fin hv'
            (by rw [List.length_drop]; omega)
          cases hu : uintRest d' (avail.drop d.minRemaining) with
          | none =>
            rw [hu] at ih
            obtain ⟨d'', rest, h2, h3, h4⟩ := ih
            refine ⟨d'', rest, h2, h3, fun more => ?_⟩
            rw [← h4 more, ← hrest, ← List.append_assoc, hsplit]
          | some x =>
            obtain ⟨v, rest⟩ := x
            rw [hu] at ih
            exact ih

end Neqo.H3

namespace Neqo.H3.Spec
open Neqo.Codec (Bytes decodeVarint)
open Neqo.H3

/-- What becomes of a stream that ends with its type. -/
def ended : StreamKind → Outcome
  | .control | .encoder | .decoder => .failed .closedCriticalStream
  | .http _ => .failed .frame
  | k => .kind k []

/-- The head of a stream of which these bytes and then the end arrive together. -/
def headAndEnd (role : Role) (bidi : Bool) (bs : Bytes) : Outcome :=
  match decodeVarint bs with
  | none => .failed .streamCreation
  | some (t, r1) =>
    match meaning role bidi t with
    | .bad e => .failed e
    | .is k => if r1 = [] then ended k else .kind k r1
    | .withId mk =>
      match decodeVarint r1 with
      | none => .failed .streamCreation
      | some (id, r2) => if r2 = [] then .failed .generalProtocol else .kind (mk id) r2

end Neqo.H3.Spec

namespace Neqo.H3
open Neqo.Codec
open Spec (Outcome meaning Meaning)

/-- What a user sees of the reader's result. -/
def HeadOut.outcome : HeadOut → Outcome
  | .wait _ => .wait
  | .kind k rest => .kind k rest
  | .failed e => .failed e

theorem uniMeaning_other {role : Role} {t : Nat} (h0 : t ≠ 0) (h1 : t ≠ 1) (h2 : t ≠ 2) (h3 : t ≠ 3)
    (h4 : t ≠ 0x54) : Spec.uniMeaning role t = .is .unknown := by
  unfold Spec.uniMeaning
  split <;> first | rfl | contradiction

theorem bidiMeaning_other {role : Role} {t : Nat} (h : t ≠ 0x41) :
    Spec.bidiMeaning role t =
      if role = .client then .bad .streamCreation
      else if t ∈ [0x2, 0x6, 0x8, 0x9] then .bad .frameUnexpected
      else if t ∈ [0x0, 0x3, 0x4, 0x5, 0x7, 0xd, 0xf0700, 0xf0701] then .bad .frame
      else .is (.http t) := by
  unfold Spec.bidiMeaning
  split
  · contradiction
  · rfl

/-- The code's table of types says what `meaning` says. -/
theorem final_meaning (t : Nat) (bidi : Bool) (role : Role) :
    finalStreamType t bidi role = match meaning role bidi t with
      | .bad e => .error e
      | .is k => .ok (some k)
      | .withId _ => .ok none := by
  cases bidi
  · simp only [Spec.meaning, Bool.false_eq_true, if_false]
    by_cases h0 : t = 0
    · subst h0; cases role <;> rfl
    by_cases h1 : t = 1
    · subst h1; cases role <;> rfl
    by_cases h2 : t = 2
    · subst h2; cases role <;> rfl
    by_cases h3 : t = 3
    · subst h3; cases role <;> rfl
    by_cases h4 : t = 0x54
    · subst h4; cases role <;> rfl
    rw [uniMeaning_other h0 h1 h2 h3 h4]
    simp [finalStreamType, h0, h1, h2, h3, h4]
  · simp only [Spec.meaning, if_true]
    by_cases h41 : t = 0x41
    · subst h41; cases role <;> rfl
    rw [bidiMeaning_other h41]
    cases role
    · simp [finalStreamType, h41]
    · have : (hKnown t = true ∧ t ≠ 1) ↔ t ∈ [0x0, 0x3, 0x4, 0x5, 0x7, 0xd, 0xf0700, 0xf0701] := by
        simp only [hKnown, List.mem_cons, List.not_mem_nil, or_false, decide_eq_true_iff]
        omega
      simp only [finalStreamType, Bool.not_true, Bool.false_eq_true, and_false, if_false, h41,
        or_false, and_true, reduceCtorEq, this, false_and, if_true, and_self]
      by_cases hr : t ∈ [0x2, 0x6, 0x8, 0x9]
      · rw [if_pos hr, if_pos hr]
      · rw [if_neg hr, if_neg hr]
        by_cases hk : t ∈ [0x0, 0x3, 0x4, 0x5, 0x7, 0xd, 0xf0700, 0xf0701]
        · rw [if_pos hk, if_pos hk]
        · rw [if_neg hk, if_neg hk]

theorem withId_eq {t : Nat} {bidi : Bool} {role : Role} {mk : Nat → StreamKind}
    (h : meaning role bidi t = .withId mk) (id : Nat) :
    mk id = if t = 0x1 then .push id else .webTransport id := by
  cases bidi
  · simp only [Spec.meaning, Bool.false_eq_true, if_false] at h
    by_cases h0 : t = 0
    · subst h0; cases h
    by_cases h1 : t = 1
    · subst h1; cases role <;> cases h; rfl
    by_cases h2 : t = 2
    · subst h2; cases h
    by_cases h3 : t = 3
    · subst h3; cases h
    by_cases h4 : t = 0x54
    · subst h4; cases h; rfl
    rw [uniMeaning_other h0 h1 h2 h3 h4] at h
    cases h
  · simp only [Spec.meaning, if_true] at h
    by_cases h41 : t = 0x41
    · subst h41; cases h; rfl
    rw [bidiMeaning_other h41] at h
    repeat' split at h
    all_goals cases h

/-- Only these kinds are named by a type alone. -/
theorem is_cases {t : Nat} {bidi : Bool} {role : Role} {k : StreamKind}
    (h : meaning role bidi t = .is k) :
    k = .control ∨ k = .decoder ∨ k = .encoder ∨ k = .unknown ∨ ∃ f, k = .http f := by
  cases bidi
  · simp only [Spec.meaning, Bool.false_eq_true, if_false] at h
    by_cases h0 : t = 0
    · subst h0; cases h; simp
    by_cases h1 : t = 1
    · subst h1; cases role <;> cases h
    by_cases h2 : t = 2
    · subst h2; cases h; simp
    by_cases h3 : t = 3
    · subst h3; cases h; simp
    by_cases h4 : t = 0x54
    · subst h4; cases h
    rw [uniMeaning_other h0 h1 h2 h3 h4] at h
    cases h; simp
  · simp only [Spec.meaning, if_true] at h
    by_cases h41 : t = 0x41
    · subst h41; cases h
    rw [bidiMeaning_other h41] at h
    repeat' split at h
    all_goals cases h
    simp

/-- The outcome from a state of the reader, given the bytes to come. -/
def headFrom (role : Role) (bidi : Bool) (h : Head) (bs : Bytes) : Outcome :=
  match h with
  | .readType d =>
    match uintRest d bs with
    | none => .wait
    | some (t, r1) =>
      match meaning role bidi t with
      | .bad e => .failed e
      | .is k => .kind k r1
      | .withId mk =>
        match decodeVarint r1 with
        | none => .wait
        | some (id, r2) => .kind (mk id) r2
  | .readId ty d =>
    match uintRest d bs with
    | none => .wait
    | some (id, r2) => .kind (if ty = 0x1 then .push id else .webTransport id) r2
  | .done => .wait

/-- The same when the end comes with these bytes. -/
def headFromEnd (role : Role) (bidi : Bool) (h : Head) (bs : Bytes) : Outcome :=
  match h with
  | .readType d =>
    match uintRest d bs with
    | none => .failed .streamCreation
    | some (t, r1) =>
      match meaning role bidi t with
      | .bad e => .failed e
      | .is k => if r1 = [] then Spec.ended k else .kind k r1
      | .withId mk =>
        match decodeVarint r1 with
        | none => .failed .streamCreation
        | some (id, r2) => if r2 = [] then .failed .generalProtocol else .kind (mk id) r2
  | .readId ty d =>
    match uintRest d bs with
    | none => .failed .streamCreation
    | some (id, r2) =>
      if r2 = [] then .failed .generalProtocol
      else .kind (if ty = 0x1 then .push id else .webTransport id) r2
  | .done => .wait

/-- A state of the reader before it has finished. -/
def VH : Head → Prop
  | .readType d => VU d
  | .readId _ d => VU d
  | .done => False

theorem vu_zero : VU {} := by intro r h; cases h

theorem uintRest_zero (bs : Bytes) : uintRest {} bs = decodeVarint bs := rfl

/-- Bytes arriving after the head. -/
def _root_.Neqo.H3.Spec.Outcome.andThen (o : Outcome) (more : Bytes) : Outcome :=
  match o with
  | .kind k rest => .kind k (rest ++ more)
  | o => o

theorem decodeN_append {n : Nat} {bs more r : Bytes} {v : Nat} (h : decodeN n bs = some (v, r)) :
    decodeN n (bs ++ more) = some (v, r ++ more) := by
  unfold decodeN at h ⊢
  by_cases hn : n = 0 ∨ 8 < n
  · rw [if_pos hn] at h; cases h
  rw [if_neg hn] at h ⊢
  by_cases hl : bs.length < n
  · rw [if_pos hl] at h; cases h
  · rw [if_neg hl] at h
    simp only [Option.some.injEq, Prod.mk.injEq] at h
    obtain ⟨rfl, rfl⟩ := h
    rw [if_neg (by simp; omega), List.take_append_of_le_length (by omega),
      List.drop_append_of_le_length (by omega)]

theorem decodeVarint_append {bs more r : Bytes} {v : Nat} (h : decodeVarint bs = some (v, r)) :
    decodeVarint (bs ++ more) = some (v, r ++ more) := by
  unfold decodeVarint at h ⊢
  cases h1 : decodeN 1 bs with
  | none => simp [h1] at h
  | some x =>
    obtain ⟨b1, d1⟩ := x
    rw [h1] at h
    rw [decodeN_append h1]
    simp only at h ⊢
    generalize b1 >>> 6 = s at h ⊢
    match s with
    | 0 => simp only [Option.some.injEq, Prod.mk.injEq] at h ⊢; simp [h]
    | 1 | 2 | 3 =>
      simp only [Option.map_eq_some_iff] at h
      obtain ⟨⟨x, y⟩, hx, hy⟩ := h
      simp only [Prod.mk.injEq] at hy
      obtain ⟨rfl, rfl⟩ := hy
      simp [decodeN_append hx]
    | _ + 4 => simp at h

theorem uintRest_append {d : IncUint} {bs more r : Bytes} {v : Nat} (h : uintRest d bs = some (v, r)) :
    uintRest d (bs ++ more) = some (v, r ++ more) := by
  unfold uintRest at h ⊢
  cases hr : d.remaining with
  | some n =>
    simp only [hr] at h ⊢
    by_cases hl : bs.length < n
    · rw [if_pos hl] at h; cases h
    · rw [if_neg hl] at h
      simp only [Option.some.injEq, Prod.mk.injEq] at h
      obtain ⟨rfl, rfl⟩ := h
      rw [if_neg (by simp; omega), List.take_append_of_le_length (by omega),
        List.drop_append_of_le_length (by omega)]
  | none =>
    simp only [hr] at h ⊢
    exact decodeVarint_append h

/-! ## One call -/

theorem headId_end (ty : Nat) (d : IncUint) (avail : Bytes) (hv : VU d) (role : Role) (bidi : Bool) :
    (headId ty d avail true).outcome = headFromEnd role bidi (.readId ty d) avail := by
  have := headRead_spec (avail.length + 1) d avail true hv (by omega)
  unfold headId headFromEnd
  cases hu : uintRest d avail with
  | none =>
    rw [hu] at this
    obtain ⟨d', rest, h, -⟩ := this
    rw [h]
    simp only [hu]
    rfl
  | some x =>
    obtain ⟨v, rest⟩ := x
    rw [hu] at this
    obtain ⟨d', h⟩ := this
    rw [h]
    simp only [hu]
    cases rest <;> simp [HeadOut.outcome]

theorem headId_more (ty : Nat) (d : IncUint) (avail : Bytes) (hv : VU d) (role : Role) (bidi : Bool) :
    match headId ty d avail false with
    | .wait h' => VH h' ∧ headFrom role bidi (.readId ty d) avail = .wait ∧
        (∀ more, headFrom role bidi (.readId ty d) (avail ++ more) = headFrom role bidi h' more) ∧
        (∀ more, headFromEnd role bidi (.readId ty d) (avail ++ more) = headFromEnd role bidi h' more)
    | .kind k rest => headFrom role bidi (.readId ty d) avail = .kind k rest ∧
        ∀ more, headFrom role bidi (.readId ty d) (avail ++ more) = .kind k (rest ++ more)
    | .failed e => ∀ more, headFrom role bidi (.readId ty d) (avail ++ more) = .failed e := by
  have := headRead_spec (avail.length + 1) d avail false hv (by omega)
  unfold headId
  cases hu : uintRest d avail with
  | none =>
    rw [hu] at this
    obtain ⟨d', rest, h, hv', hm⟩ := this
    rw [h]
    simp only [Bool.false_eq_true, if_false]
    exact ⟨hv', by simp [headFrom, hu], fun more => by simp [headFrom, hm], fun more => by
      simp [headFromEnd, hm]⟩
  | some x =>
    obtain ⟨v, rest⟩ := x
    rw [hu] at this
    obtain ⟨d', h⟩ := this
    rw [h]
    simp only [Bool.false_and, Bool.false_eq_true, if_false]
    exact ⟨by simp [headFrom, hu], fun more => by simp [headFrom, uintRest_append hu]⟩

theorem headType_end (role : Role) (bidi : Bool) (d : IncUint) (avail : Bytes) (hv : VU d) :
    (headType role bidi d avail true).outcome = headFromEnd role bidi (.readType d) avail := by
  have := headRead_spec (avail.length + 1) d avail true hv (by omega)
  unfold headType headFromEnd
  cases hu : uintRest d avail with
  | none =>
    rw [hu] at this
    obtain ⟨d', rest, h, -⟩ := this
    rw [h]
    simp only [hu]
    rfl
  | some x =>
    obtain ⟨t, rest⟩ := x
    rw [hu] at this
    obtain ⟨d', h⟩ := this
    rw [h]
    simp only [Bool.true_and, final_meaning, hu]
    cases hm : meaning role bidi t with
    | bad e => rfl
    | is k =>
      cases rest with
      | nil =>
        simp only [List.isEmpty_nil, if_true]
        rcases is_cases hm with rfl | rfl | rfl | rfl | ⟨f, rfl⟩ <;> rfl
      | cons b bs => simp [HeadOut.outcome]
    | withId mk =>
      cases rest with
      | nil => simp [mapStreamFin, HeadOut.outcome, C02_decode_nil]
      | cons b bs =>
        simp only [List.isEmpty_cons, Bool.false_eq_true, if_false]
        rw [headId_end t {} (b :: bs) vu_zero role bidi]
        simp only [headFromEnd, uintRest_zero]
        cases decodeVarint (b :: bs) with
        | none => rfl
        | some y =>
          simp only [withId_eq hm]

theorem headType_more (role : Role) (bidi : Bool) (d : IncUint) (avail : Bytes) (hv : VU d) :
    match headType role bidi d avail false with
    | .wait h' => VH h' ∧ headFrom role bidi (.readType d) avail = .wait ∧
        (∀ more, headFrom role bidi (.readType d) (avail ++ more) = headFrom role bidi h' more) ∧
        (∀ more, headFromEnd role bidi (.readType d) (avail ++ more) = headFromEnd role bidi h' more)
    | .kind k rest => headFrom role bidi (.readType d) avail = .kind k rest ∧
        ∀ more, headFrom role bidi (.readType d) (avail ++ more) = .kind k (rest ++ more)
    | .failed e => ∀ more, headFrom role bidi (.readType d) (avail ++ more) = .failed e := by
  have := headRead_spec (avail.length + 1) d avail false hv (by omega)
  unfold headType
  cases hu : uintRest d avail with
  | none =>
    rw [hu] at this
    obtain ⟨d', rest, h, hv', hm⟩ := this
    rw [h]
    simp only [Bool.false_eq_true, if_false]
    exact ⟨hv', by simp [headFrom, hu], fun more => by simp [headFrom, hm], fun more => by
      simp [headFromEnd, hm]⟩
  | some x =>
    obtain ⟨t, rest⟩ := x
    rw [hu] at this
    obtain ⟨d', h⟩ := this
    rw [h]
    simp only [Bool.false_and, Bool.false_eq_true, if_false, final_meaning]
    cases hm : meaning role bidi t with
    | bad e =>
      simp only
      intro more
      simp [headFrom, uintRest_append hu, hm]
    | is k =>
      simp only
      exact ⟨by simp [headFrom, hu, hm], fun more => by simp [headFrom, uintRest_append hu, hm]⟩
    | withId mk =>
      simp only
      have hid := headId_more t {} rest vu_zero role bidi
      have e1 : headFrom role bidi (.readType d) avail = headFrom role bidi (.readId t {}) rest := by
        simp only [headFrom, hu, hm, uintRest_zero, withId_eq hm]
      have e2 : ∀ more, headFrom role bidi (.readType d) (avail ++ more) =
          headFrom role bidi (.readId t {}) (rest ++ more) := by
        intro more
        simp only [headFrom, uintRest_append hu, hm, uintRest_zero, withId_eq hm]
      have e3 : ∀ more, headFromEnd role bidi (.readType d) (avail ++ more) =
          headFromEnd role bidi (.readId t {}) (rest ++ more) := by
        intro more
        simp only [headFromEnd, uintRest_append hu, hm, uintRest_zero, withId_eq hm]
      cases hr : headId t {} rest false with
      | wait h' =>
        rw [hr] at hid
        simp only at hid ⊢
        exact ⟨hid.1, e1.trans hid.2.1, fun m => (e2 m).trans (hid.2.2.1 m),
          fun m => (e3 m).trans (hid.2.2.2 m)⟩
      | kind k r =>
        rw [hr] at hid
        simp only at hid ⊢
        exact ⟨e1.trans hid.1, fun m => (e2 m).trans (hid.2 m)⟩
      | failed e =>
        rw [hr] at hid
        simp only at hid ⊢
        exact fun m => (e2 m).trans (hid m)

theorem getType_more (role : Role) (bidi : Bool) (h : Head) (avail : Bytes) (hv : VH h) :
    match h.getType role bidi avail false with
    | .wait h' => VH h' ∧ headFrom role bidi h avail = .wait ∧
        (∀ more, headFrom role bidi h (avail ++ more) = headFrom role bidi h' more) ∧
        (∀ more, headFromEnd role bidi h (avail ++ more) = headFromEnd role bidi h' more)
    | .kind k rest => headFrom role bidi h avail = .kind k rest ∧
        ∀ more, headFrom role bidi h (avail ++ more) = .kind k (rest ++ more)
    | .failed e => ∀ more, headFrom role bidi h (avail ++ more) = .failed e := by
  cases h with
  | readType d => exact headType_more role bidi d avail hv
  | readId ty d => exact headId_more ty d avail hv role bidi
  | done => exact hv.elim

theorem getType_end (role : Role) (bidi : Bool) (h : Head) (avail : Bytes) (hv : VH h) :
    (h.getType role bidi avail true).outcome = headFromEnd role bidi h avail := by
  cases h with
  | readType d => exact headType_end role bidi d avail hv
  | readId ty d => exact headId_end ty d avail hv role bidi
  | done => exact hv.elim

theorem headFrom_nil (role : Role) (bidi : Bool) (h : Head) (hv : VH h) : headFrom role bidi h [] = .wait := by
  have hu : ∀ d, VU d → uintRest d [] = none := by
    intro d hd
    unfold uintRest
    cases hr : d.remaining with
    | none => simp [C02_decode_nil]
    | some r => have := hd r hr; simp; omega
  cases h with
  | readType d => simp [headFrom, hu d hv]
  | readId ty d => simp [headFrom, hu d hv]
  | done => exact hv.elim

/-! ## Many calls -/

theorem feed_open (role : Role) (bidi : Bool) : ∀ (cs : List Bytes) (h : Head), VH h →
    (h.feed role bidi cs false).outcome = headFrom role bidi h cs.flatten
  | [], h, hv => by simp [Head.feed, HeadOut.outcome, headFrom_nil role bidi h hv]
  | [c], h, hv => by
    have := getType_more role bidi h c hv
    simp only [Head.feed, List.flatten_cons, List.flatten_nil, List.append_nil]
    cases hg : h.getType role bidi c false with
    | wait h' => rw [hg] at this; simp [HeadOut.outcome, this.2.1]
    | kind k r => rw [hg] at this; simp [HeadOut.outcome, this.1]
    | failed e =>
      rw [hg] at this
      have := this []
      rw [List.append_nil] at this
      simp [HeadOut.outcome, this]
  | c :: c' :: cs, h, hv => by
    have := getType_more role bidi h c hv
    rw [List.flatten_cons (l := c)]
    rw [Head.feed]
    · cases hg : h.getType role bidi c false with
      | wait h' =>
        rw [hg] at this
        simp only at this ⊢
        rw [this.2.2.1]
        exact feed_open role bidi (c' :: cs) h' this.1
      | kind k r =>
        rw [hg] at this
        simp only at this ⊢
        rw [this.2]; rfl
      | failed e =>
        rw [hg] at this
        simp only at this ⊢
        rw [this]; rfl
    · simp

theorem feed_end (role : Role) (bidi : Bool) (last : Bytes) : ∀ (cs : List Bytes) (h : Head), VH h →
    (h.feed role bidi (cs ++ [last]) true).outcome =
      if headFrom role bidi h cs.flatten = .wait then headFromEnd role bidi h (cs.flatten ++ last)
      else (headFrom role bidi h cs.flatten).andThen last
  | [], h, hv => by
    simp only [Head.feed, List.nil_append, List.flatten_nil, headFrom_nil role bidi h hv, if_true]
    exact getType_end role bidi h last hv
  | c :: cs, h, hv => by
    have := getType_more role bidi h c hv
    rw [List.cons_append, List.flatten_cons (l := c)]
    rw [Head.feed]
    · cases hg : h.getType role bidi c false with
      | wait h' =>
        rw [hg] at this
        simp only at this ⊢
        rw [this.2.2.1, List.append_assoc, this.2.2.2]
        exact feed_end role bidi last cs h' this.1
      | kind k r =>
        rw [hg] at this
        simp only at this ⊢
        rw [this.2]
        simp [HeadOut.outcome, Spec.Outcome.andThen]
      | failed e =>
        rw [hg] at this
        simp only at this ⊢
        rw [this]
        simp [HeadOut.outcome, Spec.Outcome.andThen]
    · simp

/-! ## C70 -/

/-- C70: however the beginning of a stream is divided into pieces, the kind of the
stream is the one its type, and the identifier after it if there is one, say; what
follows is left on the stream; a type that may not be used is refused; nothing is
decided before the whole head has arrived. -/
theorem C70_head (role : Role) (bidi : Bool) (pieces : List Bytes) :
    (Head.feed role bidi (.readType {}) pieces false).outcome = Spec.head role bidi pieces.flatten :=
  feed_open role bidi pieces _ vu_zero

/-- C70: the end of a stream whose head has already arrived changes nothing. -/
theorem C70_end_after_head (role : Role) (bidi : Bool) (pieces : List Bytes) (last : Bytes)
    (h : Spec.head role bidi pieces.flatten ≠ .wait) :
    (Head.feed role bidi (.readType {}) (pieces ++ [last]) true).outcome =
      Spec.head role bidi (pieces ++ [last]).flatten := by
  rw [feed_end role bidi last pieces (.readType {}) vu_zero]
  have e : headFrom role bidi (.readType {}) pieces.flatten = Spec.head role bidi pieces.flatten := rfl
  rw [e, if_neg h]
  rw [List.flatten_append, List.flatten_cons, List.flatten_nil, List.append_nil]
  unfold Spec.head at h ⊢
  cases h1 : decodeVarint pieces.flatten with
  | none => simp [h1] at h
  | some x =>
    obtain ⟨t, r⟩ := x
    rw [h1] at h
    rw [decodeVarint_append h1]
    simp only at h ⊢
    cases hm : meaning role bidi t with
    | bad e => rfl
    | is k => rfl
    | withId mk =>
      rw [hm] at h
      simp only at h ⊢
      cases h2 : decodeVarint r with
      | none => simp [h2] at h
      | some y =>
        obtain ⟨id, r2⟩ := y
        rw [decodeVarint_append h2]
        rfl

/-- C70: a stream that ends with the last part of its head.  (In full, a stream that
ends early should be dropped and one that ends after its head be accepted; see
`C70_end_with_head_closes` and `C70_end_in_head_closes`.) -/
theorem C70_end_partial (role : Role) (bidi : Bool) (pieces : List Bytes) (last : Bytes)
    (h : Spec.head role bidi pieces.flatten = .wait) :
    (Head.feed role bidi (.readType {}) (pieces ++ [last]) true).outcome =
      Spec.headAndEnd role bidi (pieces ++ [last]).flatten := by
  rw [feed_end role bidi last pieces (.readType {}) vu_zero]
  have e : headFrom role bidi (.readType {}) pieces.flatten = Spec.head role bidi pieces.flatten := rfl
  rw [e, if_pos h, List.flatten_append, List.flatten_cons, List.flatten_nil, List.append_nil]
  rfl

/-- C70: nothing a peer sends makes the reader panic. -/
theorem C70_no_panic (role : Role) (bidi : Bool) (pieces : List Bytes) (fin : Bool) :
    Head.feed role bidi (.readType {}) pieces fin ≠ .failed .panic := by
  have hmean : ∀ t, meaning role bidi t ≠ .bad .panic := by
    intro t h
    unfold Spec.meaning at h
    cases bidi
    · simp only [Bool.false_eq_true, if_false] at h
      unfold Spec.uniMeaning at h
      repeat' split at h
      all_goals cases h
    · simp only [if_true] at h
      unfold Spec.bidiMeaning at h
      repeat' split at h
      all_goals cases h
  have hh : ∀ bs, Spec.head role bidi bs ≠ .failed .panic := by
    intro bs h
    unfold Spec.head at h
    repeat' split at h
    all_goals cases h
    rename_i hm
    exact hmean _ hm
  have he : ∀ bs, Spec.headAndEnd role bidi bs ≠ .failed .panic := by
    intro bs h
    unfold Spec.headAndEnd at h
    cases h1 : decodeVarint bs with
    | none => simp [h1] at h
    | some x =>
      simp only [h1] at h
      cases hm : meaning role bidi x.1 with
      | bad e => simp only [hm, Outcome.failed.injEq] at h; exact hmean _ (h ▸ hm)
      | is k =>
        simp only [hm] at h
        split at h
        · cases k <;> cases h
        · cases h
      | withId mk =>
        simp only [hm] at h
        repeat' split at h
        all_goals cases h
  intro hp
  have hp' : (Head.feed role bidi (.readType {}) pieces fin).outcome = .failed .panic := by
    rw [hp]; rfl
  cases fin with
  | false => rw [C70_head] at hp'; exact hh _ hp'
  | true =>
    rcases List.eq_nil_or_concat pieces with rfl | ⟨init, last, rfl⟩
    · cases hp'
    · rw [List.concat_eq_append] at hp'
      by_cases hw : Spec.head role bidi init.flatten = .wait
      · rw [C70_end_partial _ _ _ _ hw] at hp'; exact he _ hp'
      · rw [C70_end_after_head _ _ _ _ hw] at hp'; exact hh _ hp'

/-- C70 (negation): a WebTransport stream that carries no data.  If its end arrives
after its session ID, the stream is accepted; if the end arrives together with the
session ID, the connection is closed. -/
theorem C70_end_with_head_closes :
    Head.feed .server false (.readType {}) [[0x40, 0x54, 0x04], []] true = .kind (.webTransport 4) [] ∧
    Head.feed .server false (.readType {}) [[0x40, 0x54, 0x04]] true = .failed .generalProtocol ∧
    Head.feed .client false (.readType {}) [[0x01, 0x04], []] true = .kind (.push 4) [] ∧
    Head.feed .client false (.readType {}) [[0x01, 0x04]] true = .failed .generalProtocol := by
  decide +kernel

/-- C70 (negation): a stream that ends before its type is complete, which a receiver
must tolerate (RFC 9114 §6.2), closes the connection. -/
theorem C70_end_in_head_closes :
    Head.feed .server false (.readType {}) [[]] true = .failed .streamCreation ∧
    Head.feed .server false (.readType {}) [[0x40], []] true = .failed .streamCreation := by
  decide +kernel

/-- A server reads the head of a WebTransport stream byte by byte. -/
example : Head.feed .server true (.readType {}) [[0x40], [0x41], [], [0x04, 0xaa]] false =
    .kind (.webTransport 4) [0xaa] := by decide +kernel

/-- The hypotheses of `C70_end_after_head` and `C70_end_partial`. -/
example : Spec.head .client false [[0x00], [0x04]].flatten ≠ .wait ∧
    Spec.head .client false [[0x01]].flatten = .wait := by decide +kernel

end Neqo.H3
