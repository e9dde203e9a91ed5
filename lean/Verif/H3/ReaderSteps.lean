import Verif.H3.ReaderLemmas

/-! Every step of the reader keeps what the specification says about the rest. -/
namespace Neqo.H3
open Neqo.Codec
open Spec (Kind cut also read)

variable {T : Type}

/-- The decoder handles a frame type the way the protocol says (`payload` is
how many bytes of payload a frame leaves on the stream). -/
@[reducible] def AgreesAt (F : FrameDecoder T) (payload : T → Nat) (t : Nat) (k : Kind T) : Prop :=
  match k with
  | .reserved => F.frameTypeAllowed t = .error .httpFrameUnexpected
  | .inline mk =>
    F.frameTypeAllowed t = .ok () ∧
      ∀ len d, F.decode t len d = .ok (some (mk len)) ∧ payload (mk len) = len
  | .whole limit parse =>
    F.frameTypeAllowed t = .ok () ∧ F.isKnownType t = true ∧ F.maxFrameData t = limit ∧
      (∀ len, 0 < len → F.decode t len none = .ok none) ∧
      (∀ data, data.length ≤ limit →
        F.decode t data.length (some data) = (parse data).map some) ∧
      ∀ data f, parse data = .ok f → payload f = 0
  | .unknown =>
    F.frameTypeAllowed t = .ok () ∧ F.isKnownType t = false ∧
      ∀ len d, F.decode t len d = .ok none

/-- The decoder handles every frame type the way the protocol says. -/
def Agrees (F : FrameDecoder T) (payload : T → Nat) (kind : Nat → Kind T) : Prop :=
  ∀ t, AgreesAt F payload t (kind t)

variable {F : FrameDecoder T} {payload : T → Nat} {kind : Nat → Kind T}

/-- What is read from a state on, by the specification. -/
def from' (kind : Nat → Kind T) (p : Pump) (bs : Bytes) (fin : Bool) : List (Item T) × End :=
  if p.left > 0 then
    also ((bs.take p.left).map .byte)
      (if bs.length < p.left then cut fin else read kind (bs.drop p.left) fin)
  else match p.reader.state with
  | .getType d =>
    if d.remaining = none ∧ bs = [] then ([], if fin then .finished else .more)
    else match uintRest d bs with
      | none => cut fin
      | some (t, r1) => afterType kind (fun r => read kind r fin) t r1 fin
  | .getLength d =>
    match uintRest d bs with
    | none => cut fin
    | some (len, r2) => afterLen kind (fun r => read kind r fin) p.reader.frameType len r2 fin
  | .getData d =>
    if bs.length < d.remaining then cut fin
    else match kind p.reader.frameType with
      | .whole _ parse =>
        match parse (d.v ++ bs.take d.remaining) with
        | .error e => ([], .failed e)
        | .ok f => also [.frame f] (read kind (bs.drop d.remaining) fin)
      | _ => ([], .failed .panic)
  | .discharge n => if bs.length < n then cut fin else read kind (bs.drop n) fin

/-- States of the reader between two reads. -/
def VR (kind : Nat → Kind T) (r : Reader) : Prop :=
  match r.state with
  | .getType d => VU d
  | .getLength d => VU d ∧ (∀ h : kind r.frameType = .reserved, False)
  | .getData d => 0 < d.remaining ∧ d.v.length + d.remaining = r.frameLen ∧
      ∃ limit parse, kind r.frameType = .whole limit parse ∧ r.frameLen ≤ limit
  | .discharge n => 0 < n

def VP (kind : Nat → Kind T) (p : Pump) : Prop := p.left = 0 → VR kind p.reader

theorem vu_new : VU {} := by intro r h; cases h

theorem vr_new : VR kind Reader.new := vu_new

theorem vr_reset {r : Reader} (h : r.state = .getType {}) : VR kind r := by
  unfold VR; rw [h]; exact vu_new

theorem also_nil (x : List (Item T) × End) : also [] x = x := rfl

theorem also_also (a b : List (Item T)) (x : List (Item T) × End) :
    also a (also b x) = also (a ++ b) x := by simp [also]

/-- At the start of a frame. -/
theorem from_reset (r : Reader) (h : r.state = .getType {}) (bs : Bytes) (fin : Bool) :
    from' kind ⟨r, 0⟩ bs fin = read kind bs fin := by
  simp only [from', h, gt_iff_lt, Nat.lt_irrefl, if_false, true_and]
  by_cases hb : bs = []
  · rw [if_pos hb, hb]; rfl
  · rw [if_neg hb, read_ne kind bs fin hb]; rfl

/-- After a frame that leaves `n` bytes on the stream. -/
theorem from_left (r : Reader) (h : r.state = .getType {}) (n : Nat) (bs : Bytes) (fin : Bool) :
    from' kind ⟨r, n⟩ bs fin = also ((bs.take n).map .byte)
      (if bs.length < n then cut fin else read kind (bs.drop n) fin) := by
  by_cases hn : 0 < n
  · simp only [from', gt_iff_lt, hn, if_true]
  · obtain rfl : n = 0 := by omega
    rw [from_reset r h]; simp [also]

theorem from_nil_false (p : Pump) (hp : VP kind p) : from' kind p [] false = ([], .more) := by
  obtain ⟨r, left⟩ := p
  by_cases hl : 0 < left
  · simp [from', hl, also, cut]
  · obtain rfl : left = 0 := by omega
    have hv := hp rfl
    simp only [from', gt_iff_lt, Nat.lt_irrefl, if_false]
    unfold VR at hv
    cases hs : r.state with
    | getType d =>
      rw [hs] at hv
      simp only
      cases hr : d.remaining with
      | none => simp
      | some k =>
        have := hv k hr
        simp [uintRest, hr, this.1, cut]
    | getLength d =>
      rw [hs] at hv
      simp only
      cases hr : d.remaining with
      | none => simp [uintRest, hr, C02_decode_nil, cut]
      | some k =>
        have := hv.1 k hr
        simp [uintRest, hr, this.1, cut]
    | getData d =>
      rw [hs] at hv
      simp [hv.1, cut]
    | discharge n =>
      rw [hs] at hv
      have h0 : 0 < n := hv
      simp [h0, cut]

/-- The end of the stream with nothing left to read. -/
theorem from_nil_true (r : Reader) (hv : VR kind r) :
    from' kind ⟨r, 0⟩ [] true =
      ([], if r.inProgress then .failed .httpFrame else .finished) := by
  obtain ⟨st, ft, fl⟩ := r
  simp only [from', gt_iff_lt, Nat.lt_irrefl, if_false, Reader.inProgress]
  unfold VR at hv
  cases hs : st with
  | getType d =>
    rw [hs] at hv
    obtain ⟨v, rem⟩ := d
    cases rem with
    | none => simp
    | some k =>
      have := hv k rfl
      simp [uintRest, this.1, cut]
  | getLength d =>
    rw [hs] at hv
    obtain ⟨v, rem⟩ := d
    cases rem with
    | none => simp [uintRest, C02_decode_nil, cut]
    | some k =>
      have := hv.1 k rfl
      simp [uintRest, this.1, cut]
  | getData d =>
    rw [hs] at hv
    simp [hv.1, cut]
  | discharge n =>
    rw [hs] at hv
    have h0 : 0 < n := hv
    simp [h0, cut]

/-- What `consume` must achieve. -/
def Good (payload : T → Nat) (kind : Nat → Kind T) (r : Reader) (input : Bytes) :
    Except Err (Reader × Option T) → Prop
  | .error e => ∀ rest fin, from' kind ⟨r, 0⟩ (input ++ rest) fin = ([], .failed e)
  | .ok (r', some f) => r'.state = .getType {} ∧ ∀ rest fin,
      from' kind ⟨r, 0⟩ (input ++ rest) fin = also [.frame f] (from' kind ⟨r', payload f⟩ rest fin)
  | .ok (r', none) => VR kind r' ∧ ∀ rest fin,
      from' kind ⟨r, 0⟩ (input ++ rest) fin = from' kind ⟨r', 0⟩ rest fin

theorem lengthDecoded_good (ha : Agrees F payload kind) (r : Reader) (len : Nat)
    (hk : ∀ _ : kind r.frameType = .reserved, False) :
    match r.lengthDecoded F len with
    | .error e => ∀ rest fin,
        afterLen kind (fun x => read kind x fin) r.frameType len rest fin = ([], .failed e)
    | .ok (r', some f) => r'.state = .getType {} ∧ ∀ rest fin,
        afterLen kind (fun x => read kind x fin) r.frameType len rest fin =
          also [.frame f] (from' kind ⟨r', payload f⟩ rest fin)
    | .ok (r', none) => VR kind r' ∧ ∀ rest fin,
        afterLen kind (fun x => read kind x fin) r.frameType len rest fin =
          from' kind ⟨r', 0⟩ rest fin := by
  have h := ha r.frameType
  unfold Reader.lengthDecoded afterLen
  cases hkt : kind r.frameType with
  | reserved => exact absurd hkt (fun x => hk x)
  | inline mk =>
    rw [hkt] at h
    obtain ⟨_, h⟩ := h
    obtain ⟨h1, h2⟩ := h len (if len > 0 then none else some [])
    simp only [h1, bind, Except.bind, pure, Except.pure]
    refine ⟨rfl, fun rest fin => ?_⟩
    rw [h2, from_left _ rfl, also_also]; rfl
  | unknown =>
    rw [hkt] at h
    obtain ⟨_, h2, h3⟩ := h
    simp only [h3, bind, Except.bind, pure, Except.pure, h2]
    rw [if_neg (by simp)]
    by_cases hz : len = 0
    · rw [if_pos hz]
      refine ⟨vu_new, fun rest fin => ?_⟩
      rw [from_reset _ rfl, hz]; simp
    · rw [if_neg hz]
      refine ⟨show 0 < len by omega, fun rest fin => ?_⟩
      simp [from']
  | whole limit parse =>
    rw [hkt] at h
    obtain ⟨_, h2, h3, h4, h5, h6⟩ := h
    by_cases hz : len = 0
    · subst hz
      have h5' := h5 [] (by simp)
      simp only [List.length_nil] at h5'
      simp only [gt_iff_lt, Nat.lt_irrefl, if_false, h5', bind, Except.bind, pure, Except.pure,
        Nat.not_lt_zero, List.take_zero, List.drop_zero]
      cases hp : parse [] with
      | error e => simp only [Except.map]; intro _ _; trivial
      | ok f =>
        simp only [Except.map]
        refine ⟨rfl, fun rest fin => ?_⟩
        rw [h6 _ _ hp, from_reset _ rfl]
    · have hpos : len > 0 := by omega
      simp only [if_pos hpos, h4 len hpos, bind, Except.bind, pure, Except.pure, h2, h3, if_true]
      by_cases hl : len > limit
      · simp only [if_pos hl, gt_iff_lt]
        intro rest fin
        trivial
      · simp only [if_neg hl]
        refine ⟨⟨hpos, ?_, limit, parse, hkt, Nat.le_of_not_lt hl⟩, fun rest fin => ?_⟩
        · simp [IncBuffer.new]
        · simp only [from', gt_iff_lt, Nat.lt_irrefl, if_false, IncBuffer.new, hkt, List.nil_append]
          cases parse (rest.take len) <;> rfl

theorem consume_good (ha : Agrees F payload kind) (r : Reader) (hv : VR kind r) (input : Bytes)
    (hne : input ≠ []) (hlen : input.length ≤ r.minRemaining) :
    Good payload kind r input (r.consume F input) := by
  have hpos : 0 < input.length := List.length_pos_iff.mpr hne
  unfold Reader.consume
  unfold VR at hv
  unfold Reader.minRemaining at hlen
  cases hs : r.state with
  | getType d =>
    rw [hs] at hv hlen
    simp only at hv hlen
    obtain ⟨d', o, he, hsome, hnone⟩ := uint_consume d hv input hne hlen
    have hfrom : ∀ rest fin, from' kind ⟨r, 0⟩ (input ++ rest) fin =
        match uintRest d (input ++ rest) with
        | none => cut fin
        | some (t, r1) => afterType kind (fun r => read kind r fin) t r1 fin := by
      intro rest fin
      simp only [from', hs, gt_iff_lt, Nat.lt_irrefl, if_false]
      rw [if_neg (by simp [hne])]
    cases o with
    | none =>
      obtain ⟨hvu, hsm, hr⟩ := hnone rfl
      simp only [he]
      refine ⟨hvu, fun rest fin => ?_⟩
      rw [hfrom, hr]
      simp only [from', gt_iff_lt, Nat.lt_irrefl, if_false]
      rw [if_neg]
      rintro ⟨hn, _⟩
      rw [hn] at hsm; cases hsm
    | some t =>
      have hr := hsome t rfl
      simp only [he, Reader.typeDecoded]
      have hk := ha t
      have hfrom' : ∀ rest fin, from' kind ⟨r, 0⟩ (input ++ rest) fin =
          afterType kind (fun r => read kind r fin) t rest fin := by
        intro rest fin; rw [hfrom, hr]
      have notres : (∀ _ : kind t = .reserved, False) → F.frameTypeAllowed t = .ok () →
          Good payload kind r input
            (do
              let r' ← (do
                F.frameTypeAllowed t
                pure { r with frameType := t, state := .getLength {} } : Except Err Reader)
              pure (r', none)) := by
        intro hnr hal
        simp only [hal, bind, Except.bind, pure, Except.pure]
        refine ⟨⟨vu_new, hnr⟩, fun rest fin => ?_⟩
        rw [hfrom']
        simp only [from', gt_iff_lt, Nat.lt_irrefl, if_false, uintRest, afterType]
        try cases hkt : kind t <;> first | exact absurd hkt (fun x => hnr x) | rfl
      cases hkt : kind t with
      | reserved =>
        rw [hkt] at hk
        simp only [hk, bind, Except.bind]
        intro rest fin
        rw [hfrom']
        simp [afterType, hkt]
      | inline mk =>
        rw [hkt] at hk
        exact notres (fun h => by rw [hkt] at h; cases h) hk.1
      | whole l p =>
        rw [hkt] at hk
        exact notres (fun h => by rw [hkt] at h; cases h) hk.1
      | unknown =>
        rw [hkt] at hk
        exact notres (fun h => by rw [hkt] at h; cases h) hk.1
  | getLength d =>
    rw [hs] at hv hlen
    simp only at hv hlen
    obtain ⟨d', o, he, hsome, hnone⟩ := uint_consume d hv.1 input hne hlen
    have hfrom : ∀ rest fin, from' kind ⟨r, 0⟩ (input ++ rest) fin =
        match uintRest d (input ++ rest) with
        | none => cut fin
        | some (len, r2) =>
          afterLen kind (fun r => read kind r fin) r.frameType len r2 fin := by
      intro rest fin
      simp only [from', hs, gt_iff_lt, Nat.lt_irrefl, if_false]
    cases o with
    | none =>
      obtain ⟨hvu, hsm, hr⟩ := hnone rfl
      simp only [he]
      refine ⟨⟨hvu, hv.2⟩, fun rest fin => ?_⟩
      rw [hfrom, hr]
      simp only [from', gt_iff_lt, Nat.lt_irrefl, if_false]
    | some len =>
      have hr := hsome len rfl
      simp only [he]
      have h := lengthDecoded_good ha r len hv.2
      cases hx : r.lengthDecoded F len with
      | error e =>
        rw [hx] at h
        intro rest fin; rw [hfrom, hr]; exact h rest fin
      | ok x =>
        rw [hx] at h
        obtain ⟨r', o⟩ := x
        cases o with
        | none => exact ⟨h.1, fun rest fin => by rw [hfrom, hr]; exact h.2 rest fin⟩
        | some f => exact ⟨h.1, fun rest fin => by rw [hfrom, hr]; exact h.2 rest fin⟩
  | getData d =>
    rw [hs] at hv hlen
    obtain ⟨h0, hsum, limit, parse, hkt, hlim⟩ := hv
    simp only at hlen
    have hm : min d.remaining input.length = input.length := by omega
    have hk := ha r.frameType
    rw [hkt] at hk
    obtain ⟨_, _, _, _, h5, h6⟩ := hk
    simp only [IncBuffer.consume, hm, List.take_length, List.drop_length]
    by_cases hz : d.remaining - input.length = 0
    · rw [if_pos hz]
      have hrl : d.remaining = input.length := by omega
      have hdl : (d.v ++ input).length = r.frameLen := by simp; omega
      simp only [Reader.dataDecoded]
      have h5' := h5 (d.v ++ input) (by omega)
      rw [hdl] at h5'
      rw [h5']
      have hfrom : ∀ rest fin, from' kind ⟨r, 0⟩ (input ++ rest) fin =
          match parse (d.v ++ input) with
          | .error e => ([], .failed e)
          | .ok f => also [.frame f] (read kind rest fin) := by
        intro rest fin
        simp only [from', hs, gt_iff_lt, Nat.lt_irrefl, if_false, hkt, hrl]
        rw [if_neg (by simp), List.take_left, List.drop_left]
      cases hp : parse (d.v ++ input) with
      | error e =>
        intro rest fin
        rw [hfrom, hp]
      | ok f =>
        simp only [Except.map, bind, Except.bind, pure, Except.pure]
        refine ⟨rfl, fun rest fin => ?_⟩
        rw [hfrom, hp, h6 _ _ hp, from_reset _ rfl]
    · rw [if_neg hz]
      refine ⟨⟨show 0 < d.remaining - input.length by omega, ?_, limit, parse, hkt, hlim⟩,
        fun rest fin => ?_⟩
      · simp only [List.length_append]; omega
      · simp only [from', hs, gt_iff_lt, Nat.lt_irrefl, if_false, hkt, List.length_append]
        by_cases hr : rest.length < d.remaining - input.length
        · rw [if_pos hr, if_pos (by omega)]
        · rw [if_neg hr, if_neg (by omega), List.take_append, List.drop_append,
            List.take_of_length_le (by omega), List.drop_of_length_le (by omega), List.nil_append,
            List.append_assoc]
  | discharge n =>
    rw [hs] at hv hlen
    have h0 : 0 < n := hv
    simp only at hlen
    have hm : min n input.length = input.length := by omega
    simp only [incIgnoreConsume, hm]
    by_cases hz : n - input.length = 0
    · simp only [hz, decide_true, if_true]
      have hnl : n = input.length := by omega
      refine ⟨vu_new, fun rest fin => ?_⟩
      rw [from_reset r.reset rfl]
      simp only [from', hs, gt_iff_lt, Nat.lt_irrefl, if_false, hnl]
      rw [if_neg (by simp), List.drop_left]
    · simp only [hz, decide_false]
      refine ⟨show 0 < n - input.length by omega, fun rest fin => ?_⟩
      simp only [from', hs, gt_iff_lt, Nat.lt_irrefl, if_false, List.length_append]
      by_cases hr : rest.length < n - input.length
      · rw [if_pos hr, if_pos (by omega)]
      · rw [if_neg hr, if_neg (by omega), List.drop_append, List.drop_of_length_le (by omega),
          List.nil_append]

end Neqo.H3
