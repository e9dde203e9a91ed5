import Verif.H3.RecvMessageLemmas

/-! # Invariants of histories of receiving a message -/
namespace Neqo.H3
open Neqo.Codec
open Spec (Ev MEnd Phase message put mains promises got promised read also cut http3)

variable {D H : Type}

/-! ## Reading the body -/

theorem message_bytes (C : Ctx D H) (is : List (Item HFrame)) (e : End) (bs : Bytes) :
    message C .body (bs.map .byte ++ is) e = prep (bs.map .byte) (message C .body is e) := by
  induction bs with
  | nil => rfl
  | cons b bs ih => simp only [List.map_cons, List.cons_append, message, ih]; rfl

theorem msg_payload (C : Ctx D H) (input bs : Bytes) (fin : Bool) {left : Nat}
    (h : input.length ≤ left) :
    msg C .body (from' C.kind ⟨Reader.new, left⟩ (input ++ bs) fin) =
      prep (input.map .byte) (msg C .body (from' C.kind ⟨Reader.new, left - input.length⟩ bs fin)) := by
  rw [from_left Reader.new rfl, from_left Reader.new rfl]
  have e1 : (input ++ bs).take left = input ++ bs.take (left - input.length) := by
    rw [List.take_append, List.take_of_length_le h]
  have e2 : (input ++ bs).drop left = bs.drop (left - input.length) := by
    rw [List.drop_append, List.drop_of_length_le h, List.nil_append]
  rw [e1, e2]
  have e3 : ((input ++ bs).length < left) ↔ (bs.length < left - input.length) := by
    rw [List.length_append]; omega
  simp only [e3]
  generalize (if bs.length < left - input.length then cut fin
    else read C.kind (bs.drop (left - input.length)) fin) = x
  simp only [msg, also, List.map_append, List.append_assoc]
  rw [message_bytes]

theorem mains_bytes (bs : Bytes) : mains (bs.map (Ev.byte (D := D) (H := H))) = bs.map .byte := by
  induction bs with
  | nil => rfl
  | cons b bs ih => simp only [List.map_cons, mains, List.filter_cons, if_true] at *; rw [ih]

theorem promises_bytes (C : Ctx D H) (bs : Bytes) : promises C (bs.map .byte) = [] := by
  induction bs with
  | nil => rfl
  | cons b bs ih => simpa [promises] using ih

theorem prep_prep (a b : List (Ev D H)) (x : List (Ev D H) × MEnd) : prep a (prep b x) = prep (a ++ b) x := by
  simp [prep]

theorem got_data (out : List (Up D H)) (bs : Bytes) :
    got (out ++ [.data bs false]) = got out ++ bs.map .byte := by simp [got]

theorem got_data_fin (out : List (Up D H)) (bs : Bytes) :
    got (out ++ [.closed] ++ [.data bs true]) = got out ++ bs.map .byte ++ [.fin] := by simp [got]

theorem promised_data (out : List (Up D H)) (bs : Bytes) (f : Bool) :
    promised (out ++ [.data bs f]) = promised out := by simp [promised]

theorem promised_data_fin (out : List (Up D H)) (bs : Bytes) (f : Bool) :
    promised (out ++ [.closed] ++ [.data bs f]) = promised out := by simp [promised]

theorem mains_fin (log : List (Ev D H)) : mains (log ++ [.fin]) = mains log ++ [.fin] := by
  simp [mains]

theorem promises_fin (C : Ctx D H) (log : List (Ev D H)) : promises C (log ++ [.fin]) = promises C log := by
  simp [promises]

theorem emit_data_good {C : Ctx D H} {R : Bytes → Bool → List (Ev D H) × MEnd} {f0 : Bool}
    {m : Rm D H} {log : List (Ev D H)} {pend : Bytes} (hg : RGood C R f0 m log pend) :
    RGood C R f0 (m.emit (.data pend false)) log [] := by
  refine ⟨hg.sfin, hg.sem, hg.vst, ⟨?_, ?_⟩, hg.end_, hg.wait, hg.wb, hg.hnd⟩
  · simp only [Rm.emit, got_data, List.map_nil, List.append_nil]; exact hg.out.1
  · simp only [Rm.emit, promised_data]; exact hg.out.2

/-- The end of the message is passed on. -/
theorem close_good {C : Ctx D H} {R : Bytes → Bool → List (Ev D H) × MEnd} {f0 : Bool}
    {m : Rm D H} {log : List (Ev D H)} {pend : Bytes} (hf : f0 = true) (ha : m.src = ⟨[], true⟩)
    (hR : ∀ rest fin, Fol f0 rest fin → R rest fin = (log ++ [.fin], .done))
    (ho : OutRel C m.out m.blocked log pend) (hnd : ∀ b f, m.st ≠ .decoding b f)
    (hw : Wt C m) (hh : C.handler = false → m.blocked = []) :
    RGood C R f0 (m.setClosed.emit (.data pend true)) (log ++ [.fin]) [] := by
  refine ⟨by simp only [Rm.setClosed, Rm.emit, ha, hf], ?_, trivial, ⟨?_, ?_⟩,
    fun _ => ⟨by simp only [Rm.setClosed, Rm.emit, ha], hf⟩, ?_, fun _ h => absurd rfl h, hh⟩
  · intro rest fin hfol
    exact if_pos (Or.inl rfl) ▸ ⟨.done, Or.inl rfl, hR rest fin hfol⟩
  · simp only [Rm.setClosed, Rm.emit, got_data_fin, List.map_nil, List.append_nil, mains_fin]
    rw [ho.1]
  · simp only [Rm.setClosed, Rm.emit, promised_data_fin, promises_fin]
    exact ho.2
  · intro b h
    simp only [Rm.setClosed, Rm.emit] at h
    by_cases hb : m.blocked = []
    · rw [if_pos hb] at h
      obtain ⟨_, ⟨id, rest, w⟩ | ⟨f, w⟩⟩ := hw b h
      · rw [hb] at w; cases w
      · exact absurd w (hnd b f)
    · rw [if_neg hb] at h; cases h

theorem readLoop_reading (C : Ctx D H) (E : Env D) (fuel room : Nat) (g : Bytes) (m : Rm D H) (left : Nat)
    (hs : m.st = .reading left) :
    m.readLoop C E (fuel + 1) room g =
      let n := min left room
      let input := m.src.avail.take n
      let m1 : Rm D H := { m with st := .reading (left - input.length),
                                  src := { m.src with avail := m.src.avail.drop n } }
      if (m.src.fin && decide (m.src.avail.length ≤ n)) = true then
        if left - input.length > 0 then (m1, some (.main .httpFrame))
        else (m1.setClosed.emit (.data (g ++ input) true), none)
      else if left - input.length = 0 then
        match ({ m1 with st := .waitData Reader.new }).loop C E false m1.fuel with
        | (m2, some e) => (m2, some e)
        | (m2, none) => m2.readLoop C E fuel (room - input.length) (g ++ input)
      else (m1.emit (.data (g ++ input) false), none) := by
  rw [Rm.readLoop]
  simp only [hs]
  rfl

theorem readLoop_good {C : Ctx D H} (hl : C.Laws) {R : Bytes → Bool → List (Ev D H) × MEnd}
    {f0 : Bool} (E : Env D) : ∀ (fuel : Nat) (room : Nat) (g : Bytes) (m : Rm D H) (log : List (Ev D H)),
    RGood C R f0 m log g → m.st ≠ .closed → (g = [] ∨ m.st.inBody = true) → Quiet m →
    m.src.avail.length < fuel →
    match m.readLoop C E fuel room g with
    | (m', some e) => Bad C R f0 m' e
    | (m', none) => (∃ log', RGood C R f0 m' log' []) ∧ Quiet m' := by
  intro fuel
  induction fuel with
  | zero => intro room g m log _ _ _ _ h; omega
  | succ fuel ih =>
    intro room g m log hg hc hp hq hf
    cases hs : m.st with
    | reading left =>
      rw [readLoop_reading C E fuel room g m left hs]
      simp only
      have hleft : 0 < left := by have := hg.vst; rw [hs] at this; exact this
      generalize hn : min left room = n
      have hnl : n ≤ left := by omega
      generalize hin : m.src.avail.take n = input
      have hil : input.length = min n m.src.avail.length := by rw [← hin, List.length_take]
      have hav : m.src.avail = input ++ m.src.avail.drop n := by rw [← hin, List.take_append_drop]
      have hsem : ∀ rest fin, Fol f0 rest fin → R rest fin = prep (log ++ input.map .byte)
          (msg C .body (from' C.kind ⟨Reader.new, left - input.length⟩ (m.src.avail.drop n ++ rest) fin)) := by
        intro rest fin hfol
        have := hg.sem rest fin hfol
        rw [hs, if_neg (by simp)] at this
        rw [this]
        simp only [fut]
        rw [← prep_prep, ← msg_payload C input _ fin (by omega), ← List.append_assoc, ← hav]
      have hout : OutRel C m.out m.blocked (log ++ input.map .byte) (g ++ input) := by
        refine ⟨?_, ?_⟩
        · rw [mains_append, mains_bytes, ← hg.out.1, List.map_append, List.append_assoc]
        · rw [promises_append, promises_bytes, List.append_nil]; exact hg.out.2
      have hwt : ∀ m' : Rm D H, m'.waiting = m.waiting → m'.blocked = m.blocked → m'.n = m.n → Wt C m' := by
        intro m' h1 h2 h3 b' h'
        rw [h1] at h'
        obtain ⟨w1, w | ⟨f, w⟩⟩ := hg.wait b' h'
        · exact ⟨by rw [h3]; exact w1, Or.inl (by rw [h2]; exact w)⟩
        · rw [hs] at w; cases w
      have hwb : m.blocked ≠ [] → m.waiting.isSome := fun h => hg.wb h hc
      by_cases hfin : (m.src.fin && decide (m.src.avail.length ≤ n)) = true
      · rw [if_pos hfin]
        rw [Bool.and_eq_true, decide_eq_true_iff] at hfin
        have hf0 : f0 = true := by rw [← hg.sfin]; exact hfin.1
        have hd : m.src.avail.drop n = [] := List.drop_of_length_le hfin.2
        by_cases hl' : left - input.length > 0
        · rw [if_pos hl']
          refine ⟨_, [], _, hout, fun rest fin hfol => ?_⟩
          rw [hsem rest fin hfol]
          obtain ⟨rfl, rfl⟩ := hfol hf0
          rw [hd, from_left Reader.new rfl]
          simp only [List.append_nil, List.take_nil, List.map_nil, List.length_nil, hl', if_true]
          simp [also, cut, msg, message, prep]
        · rw [if_neg hl']
          refine ⟨⟨_, close_good hf0 ?_ ?_ hout (fun b f h => by cases h) (hwt _ rfl rfl rfl) hg.hnd⟩,
            fun r hr => (by cases hr), fun b f h => (by cases h)⟩
          · simp only [hd, hfin.1]
          · intro rest fin hfol
            rw [hsem rest fin hfol]
            obtain ⟨rfl, rfl⟩ := hfol hf0
            rw [hd, from_left Reader.new rfl]
            simp only [List.append_nil, List.take_nil, List.map_nil, List.length_nil, hl', if_false,
              List.drop_nil, read_nil_true]
            simp [also, msg, message, prep]
      · rw [if_neg hfin]
        by_cases hl' : left - input.length = 0
        · rw [if_pos hl']
          have hg1 : RGood C R f0 { m with st := .waitData Reader.new, src := { m.src with avail := m.src.avail.drop n } }
              (log ++ input.map .byte) (g ++ input) := by
            refine ⟨hg.sfin, ?_, vr_getType (C := C) (r := Reader.new) rfl, hout,
              fun h => by simp [Rm.ended] at h, hwt _ rfl rfl rfl, fun h _ => hwb h, hg.hnd⟩
            intro rest fin hfol
            rw [if_neg (by simp), hsem rest fin hfol, hl']
            rfl
          have hlen : (m.src.avail.drop n).length < m.src.avail.length := by
            rw [List.length_drop]; omega
          have := loop_good hl E false (Rm.fuel { m with st := .reading (left - input.length), src := { m.src with avail := m.src.avail.drop n } })
            _ _ _ hg1 (by simp) (by simp) (Or.inr rfl) (by
              simp only [Rm.passes, Rm.fuel, RmState.isDecoding, Bool.false_eq_true, if_false]; omega)
          cases hx : Rm.loop C E false (Rm.fuel { m with st := .reading (left - input.length), src := { m.src with avail := m.src.avail.drop n } })
            { m with st := .waitData Reader.new, src := { m.src with avail := m.src.avail.drop n } } with
          | mk m2 o =>
            rw [hx] at this
            cases o with
            | some e => exact this
            | none =>
              simp only at this ⊢
              obtain ⟨⟨log2, t1⟩, t2, t3, t4⟩ := this
              have hb := t3 rfl
              exact ih _ _ m2 log2 t1 (by intro h; rw [h] at hb; cases hb) (Or.inr hb) t2 (by omega)
        · rw [if_neg hl']
          have hg1 : RGood C R f0 { m with st := .reading (left - input.length), src := { m.src with avail := m.src.avail.drop n } }
              (log ++ input.map .byte) (g ++ input) := by
            refine ⟨hg.sfin, ?_, (by show 0 < left - input.length; omega), hout,
              fun h => by simp [Rm.ended] at h, hwt _ rfl rfl rfl, fun h _ => hwb h, hg.hnd⟩
            intro rest fin hfol
            rw [if_neg (by simp), hsem rest fin hfol]
            rfl
          exact ⟨⟨_, emit_data_good hg1⟩, fun r hr => (by cases hr), fun b f h => (by cases h)⟩
    | closePending =>
      simp only [Rm.readLoop, hs]
      obtain ⟨ha, hf0⟩ := hg.end_ (by simp [Rm.ended, hs])
      refine ⟨⟨_, close_good hf0 ?_ ?_ hg.out (fun b f h => by rw [hs] at h; cases h) hg.wait hg.hnd⟩,
        fun r hr => (by cases hr), fun b f h => (by cases h)⟩
      · have := hg.sfin
        cases hsrc : m.src
        rw [hsrc] at ha this
        simp only at ha this
        rw [ha, this, hf0]
      · intro rest fin hfol
        have := hg.sem rest fin hfol
        rw [hs, if_neg (by simp)] at this
        rw [this]; rfl
    | closed => exact absurd hs hc
    | waitHeaders r =>
      simp only [Rm.readLoop, hs]
      exact ⟨⟨_, emit_data_good hg⟩, hq⟩
    | decoding b f =>
      simp only [Rm.readLoop, hs]
      exact ⟨⟨_, emit_data_good hg⟩, hq⟩
    | waitData r =>
      simp only [Rm.readLoop, hs]
      exact ⟨⟨_, emit_data_good hg⟩, hq⟩
    | waitFin r =>
      simp only [Rm.readLoop, hs]
      exact ⟨⟨_, emit_data_good hg⟩, hq⟩
    | connect =>
      simp only [Rm.readLoop, hs]
      exact ⟨⟨_, emit_data_good hg⟩, hq⟩

/-! ## Going on after insertions -/

/-- As `RGood`, where the decoder has just taken the stream out of its list. -/
structure RFree (C : Ctx D H) (R : Bytes → Bool → List (Ev D H) × MEnd) (f0 : Bool) (m : Rm D H)
    (log : List (Ev D H)) : Prop where
  sfin : m.src.fin = f0
  sem : Sem C R f0 m.st m.src.avail log
  vst : VSt C m.st
  out : OutRel C m.out m.blocked log []
  end_ : m.ended = true → m.src.avail = [] ∧ f0 = true
  wait : m.waiting = none
  hnd : C.handler = false → m.blocked = []

theorem sem_log {C : Ctx D H} {R : Bytes → Bool → List (Ev D H) × MEnd} {f0 : Bool} {st : RmState}
    {avail : Bytes} {log : List (Ev D H)} (h : Sem C R f0 st avail log) (rest : Bytes) (fin : Bool)
    (hf : Fol f0 rest fin) : ∃ r, (R rest fin).1 = log ++ r := by
  have := h rest fin hf
  split at this
  · obtain ⟨e, _, h⟩ := this
    exact ⟨[], by rw [h]; simp⟩
  · exact ⟨_, by rw [this]; rfl⟩

theorem unblock_good {C : Ctx D H} {R : Bytes → Bool → List (Ev D H) × MEnd} {f0 : Bool} (E : Env D)
    (log : List (Ev D H)) : ∀ (fuel : Nat) (m : Rm D H), RFree C R f0 m log → m.blocked.length < fuel →
    match m.unblock C E fuel with
    | (m', some e, _) => Bad C R f0 m' e
    | (m', none, false) => RGood C R f0 m' log [] ∧ m'.waiting.isSome ∧ m'.st = m.st ∧ m'.src = m.src
    | (m', none, true) => RGood C R f0 m' log [] ∧ m'.st = m.st ∧ m'.src = m.src := by
  intro fuel
  induction fuel with
  | zero => intro m _ h; omega
  | succ fuel ih =>
    intro m hg hf
    unfold Rm.unblock
    cases hb : m.blocked with
    | nil =>
      simp only
      exact ⟨⟨hg.sfin, hg.sem, hg.vst, hg.out, hg.end_, fun b h => (by rw [hg.wait] at h; cases h),
        fun h => absurd hb h, hg.hnd⟩, trivial, trivial⟩
    | cons x rest =>
      obtain ⟨id, b⟩ := x
      simp only
      have hother : ∀ e, Bad C R f0 m (.other e) := fun e =>
        ⟨log, [], hg.out, fun r fin hfol => sem_log hg.sem r fin hfol⟩
      unfold Rm.decode
      cases hrd : C.ready m.n b with
      | true =>
        rw [if_pos rfl]
        cases hd : C.dec b with
        | error e => exact hother e
        | ok d =>
          simp only
          cases hacc : E.accept id d with
          | error e => exact hother e
          | ok u =>
            simp only
            have hfree : RFree C R f0 ({ m with blocked := rest }.emit (.promise id d)) log := by
              refine ⟨hg.sfin, hg.sem, hg.vst, ⟨?_, ?_⟩, hg.end_, hg.wait, fun h => ?_⟩
              · rw [← hg.out.1]; simp [Rm.emit, got]
              · rw [← hg.out.2, hb]; simp [Rm.emit, promised, hd]
              · have := hg.hnd h; rw [hb] at this; cases this
            exact ih _ hfree (by rw [hb] at hf; simp only [Rm.emit, List.length_cons] at hf ⊢; omega)
      | false =>
        rw [if_neg (by simp), hg.wait]
        simp only [Option.isSome_none, Bool.false_eq_true, if_false]
        cases hroom : E.room with
        | false => exact hother _
        | true =>
          simp only [if_true]
          refine ⟨⟨hg.sfin, hg.sem, hg.vst, hg.out, hg.end_, ?_, fun _ _ => rfl, hg.hnd⟩, rfl, trivial, trivial⟩
          intro b' h'
          simp only [Option.some.injEq] at h'
          subst h'
          exact ⟨hrd, Or.inl ⟨id, rest, hb⟩⟩

theorem receive_good {C : Ctx D H} (hl : C.Laws) {R : Bytes → Bool → List (Ev D H) × MEnd} {f0 : Bool}
    (E : Env D) {m : Rm D H} {log : List (Ev D H)} (hg : RGood C R f0 m log []) (h1 : m.st ≠ .closed)
    (h2 : m.st ≠ .closePending) :
    match m.receive C E with
    | (m', some e) => Bad C R f0 m' e
    | (m', none) => (∃ log', RGood C R f0 m' log' []) ∧ Quiet m' := by
  have := loop_good hl E true m.fuel m log [] hg h1 h2 (Or.inl rfl) (by
    unfold Rm.passes Rm.fuel; split <;> omega)
  unfold Rm.receive
  cases hx : m.loop C E true m.fuel with
  | mk m' o =>
    rw [hx] at this
    cases o with
    | some e => exact this
    | none => exact ⟨this.1, this.2.1⟩

theorem headerUnblocked_good {C : Ctx D H} (hl : C.Laws) {R : Bytes → Bool → List (Ev D H) × MEnd}
    {f0 : Bool} (E : Env D) {m : Rm D H} {log : List (Ev D H)} (hg : RFree C R f0 m log)
    (h1 : m.st ≠ .closed) (hq : ∀ r, m.st.reader = some r → m.src = ⟨[], false⟩) :
    match m.headerUnblocked C E with
    | (_, some .panic) => m.st = .closePending
    | (m', some e) => Bad C R f0 m' e
    | (m', none) => (∃ log', RGood C R f0 m' log' []) ∧ Quiet m' := by
  have := unblock_good E log (m.blocked.length + 1) m hg (by omega)
  unfold Rm.headerUnblocked
  cases hx : m.unblock C E (m.blocked.length + 1) with
  | mk m' y =>
    obtain ⟨o, b⟩ := y
    rw [hx] at this
    cases o with
    | some e =>
      cases e with
      | panic => exact absurd this id
      | main e => exact this
      | other e => exact this
    | none =>
      cases b with
      | false =>
        simp only at this ⊢
        obtain ⟨t1, t2, t3, t4⟩ := this
        exact ⟨⟨log, t1⟩, fun r hr => by rw [t4]; rw [t3] at hr; exact hq r hr, fun _ _ _ => t2⟩
      | true =>
        simp only at this ⊢
        obtain ⟨t1, t3, t4⟩ := this
        by_cases hcp : m.st = .closePending
        · have : m'.receive C E = (m', some .panic) := by
            unfold Rm.receive Rm.fuel Rm.loop
            simp only [t3, hcp, RmState.reader]
          rw [this]
          exact hcp
        · have := receive_good hl E t1 (by rw [t3]; exact h1) (by rw [t3]; exact hcp)
          cases hy : m'.receive C E with
          | mk m2 o =>
            rw [hy] at this
            cases o with
            | some e =>
              cases e with
              | panic => exact absurd this id
              | main e => exact this
              | other e => exact this
            | none => exact this

/-! ## Histories -/

/-- What has arrived in all. -/
def total (s : Src) : List (RmOp D) → Src
  | [] => s
  | .arrive bs fin _ :: ops => total (s.add bs fin) ops
  | _ :: ops => total s ops

/-- What the rest will hold, by the specification, when `s` has arrived. -/
def left (W : Bytes → Bool → List (Ev D H) × MEnd) (s : Src) : Bytes → Bool → List (Ev D H) × MEnd :=
  fun rest fin => W (s.avail ++ rest) fin

/-- Where a history panics: insertions arrive that unblock a promise after the end of
the stream has been read, before the application has read it. -/
def Panics (m : Rm D H) (op : RmOp D) : Prop :=
  m.st = .closePending ∧ m.blocked ≠ [] ∧ ∃ n E, op = .insert n E

theorem add_good {C : Ctx D H} {W : Bytes → Bool → List (Ev D H) × MEnd} {s : Src} {m : Rm D H}
    {log : List (Ev D H)} (hg : RGood C (left W s) s.fin m log []) (bs : Bytes) (fin : Bool) :
    RGood C (left W (s.add bs fin)) (s.add bs fin).fin { m with src := m.src.add bs fin } log [] := by
  have hsf := hg.sfin
  cases hf : s.fin with
  | true =>
    have h1 : s.add bs fin = s := by simp [Src.add, hf]
    have h2 : m.src.add bs fin = m.src := by simp [Src.add, hsf, hf]
    rw [h1, h2]
    exact hg
  | false =>
    have h1 : s.add bs fin = ⟨s.avail ++ bs, fin⟩ := by simp [Src.add, hf]
    have h2 : m.src.add bs fin = ⟨m.src.avail ++ bs, fin⟩ := by simp [Src.add, hsf, hf]
    rw [h1, h2]
    rw [hf] at hg
    refine ⟨rfl, ?_, hg.vst, hg.out, fun h => ?_, hg.wait, hg.wb, hg.hnd⟩
    · intro rest f hfol
      have := hg.sem (bs ++ rest) f (fun h => by cases h)
      simp only [left, ← List.append_assoc] at this ⊢
      exact this
    · have := (hg.end_ h).2
      cases this

theorem step_good {C : Ctx D H} (hl : C.Laws) {W : Bytes → Bool → List (Ev D H) × MEnd} {s : Src}
    {m : Rm D H} {log : List (Ev D H)} (hg : RGood C (left W s) s.fin m log []) (hq : Quiet m)
    (op : RmOp D) :
    match m.step C op with
    | (_, some .panic) => Panics m op
    | (m', some e) => Bad C (left W (total s [op])) (total s [op]).fin m' e
    | (m', none) => (∃ log', RGood C (left W (total s [op])) (total s [op]).fin m' log' []) ∧ Quiet m' := by
  cases op with
  | arrive bs fin E =>
    have ha := add_good hg bs fin
    simp only [Rm.step, total]
    by_cases he : m.ended = true
    · rw [if_pos he]
      have h1 := (hg.end_ he).2
      have h2 : m.src.add bs fin = m.src := by simp [Src.add, hg.sfin, h1]
      refine ⟨⟨log, ha⟩, ?_⟩
      rw [h2]
      exact hq
    · rw [if_neg he]
      have := receive_good hl E ha (by intro h; simp only at h; simp [Rm.ended, h] at he)
        (by intro h; simp only at h; simp [Rm.ended, h] at he)
      cases hx : Rm.receive C E { m with src := m.src.add bs fin } with
      | mk m' o =>
        rw [hx] at this
        cases o with
        | some e =>
          cases e with
          | panic => exact absurd this id
          | main e => exact this
          | other e => exact this
        | none => exact this
  | insert n E =>
    simp only [Rm.step, total]
    cases hw : m.waiting with
    | none =>
      simp only
      exact ⟨⟨log, ⟨hg.sfin, hg.sem, hg.vst, hg.out, hg.end_, fun b h => (by cases h),
        fun h1 h2 => by have := hg.wb h1 h2; rw [hw] at this; exact this, hg.hnd⟩⟩, hq.1,
        fun b f h => by have := hq.2 b f h; rw [hw] at this; exact this⟩
    | some b =>
      simp only
      obtain ⟨_, hw2⟩ := hg.wait b hw
      cases hrd : C.ready n b with
      | false =>
        rw [if_neg (by simp)]
        refine ⟨⟨log, ⟨hg.sfin, hg.sem, hg.vst, hg.out, hg.end_, fun b' h => ?_, fun _ _ => rfl, hg.hnd⟩⟩,
          hq.1, fun _ _ _ => rfl⟩
        simp only [Option.some.injEq] at h
        subst h
        exact ⟨hrd, hw2⟩
      | true =>
        rw [if_pos rfl]
        by_cases hc : m.st = .closed
        · rw [if_pos hc]
          refine ⟨⟨log, ⟨hg.sfin, hg.sem, hg.vst, hg.out, hg.end_, fun b' h => (by cases h),
            fun _ h => absurd hc h, hg.hnd⟩⟩, hq.1, fun b f h => ?_⟩
          simp only [hc] at h; cases h
        · rw [if_neg hc]
          have hfree : RFree C (left W s) s.fin { m with n := n, waiting := none } log :=
            ⟨hg.sfin, hg.sem, hg.vst, hg.out, hg.end_, rfl, hg.hnd⟩
          have := headerUnblocked_good hl E hfree hc hq.1
          cases hx : Rm.headerUnblocked C E { m with n := n, waiting := none } with
          | mk m' o =>
            rw [hx] at this
            cases o with
            | some e =>
              cases e with
              | panic =>
                refine ⟨this, ?_, n, E, rfl⟩
                rcases hw2 with ⟨id, rest, h⟩ | ⟨f, h⟩
                · rw [h]; simp
                · simp only at this; rw [this] at h; cases h
              | main e => exact this
              | other e => exact this
            | none => exact this
  | read room E =>
    simp only [Rm.step, total]
    by_cases hc : m.st = .closed
    · rw [if_pos hc]
      exact ⟨⟨log, hg⟩, hq⟩
    · rw [if_neg hc]
      have := readLoop_good hl E (m.src.avail.length + 2) room [] m log hg hc (Or.inl rfl) hq (by omega)
      cases hx : m.readLoop C E (m.src.avail.length + 2) room [] with
      | mk m' o =>
        rw [hx] at this
        cases o with
        | some e =>
          cases e with
          | panic => exact absurd this id
          | main e => exact this
          | other e => exact this
        | none => exact this

/-! ## What is passed up is not taken back -/

theorem prefix_emit (m : Rm D H) (u : Up D H) : m.out <+: (m.emit u).out := List.prefix_append _ _

theorem decode_out (C : Ctx D H) (E : Env D) (m : Rm D H) (b : Bytes) : (m.decode C E b).1.out = m.out := by
  unfold Rm.decode
  split
  · split <;> rfl
  · split
    · rfl
    · split <;> rfl

theorem setClosePending_out (m : Rm D H) (post : Bool) : m.out <+: (m.setClosePending post).1.out := by
  unfold Rm.setClosePending
  split
  · exact List.prefix_refl _
  · exact List.prefix_refl _
  · cases post
    · exact List.prefix_refl _
    · exact prefix_emit _ _
  · cases post
    · exact List.prefix_refl _
    · exact prefix_emit _ _
  · exact List.prefix_refl _

theorem handleFrame_out (C : Ctx D H) (E : Env D) (m : Rm D H) (f : HFrame) (fin : Bool) :
    m.out <+: (m.handleFrame C E f fin).1.out := by
  unfold Rm.handleFrame
  split
  · unfold Rm.handleHeaders
    split
    · split <;> exact List.prefix_refl _
    all_goals exact List.prefix_refl _
  · unfold Rm.handleData
    split
    · exact List.prefix_refl _
    · exact List.prefix_refl _
    · split
      · split <;> exact List.prefix_refl _
      · exact List.prefix_refl _
    · exact List.prefix_refl _
  · unfold Rm.handlePromise
    split
    · exact List.prefix_refl _
    · split
      · exact List.prefix_refl _
      · have := decode_out C E m (by assumption)
        rename_i id b _ _
        have hd := decode_out C E m b
        cases hx : m.decode C E b with
        | mk m1 o =>
          rw [hx] at hd
          simp only at hd
          cases o with
          | error e => simp only; rw [hd]; exact List.prefix_refl _
          | ok o =>
            cases o with
            | none => simp only; rw [hd]; exact List.prefix_refl _
            | some d =>
              simp only
              cases E.accept id d with
              | error e => simp only; rw [hd]; exact List.prefix_refl _
              | ok u => simp only; rw [← hd]; exact prefix_emit _ _
  · exact List.prefix_refl _

theorem addHeaders_out (C : Ctx D H) (m : Rm D H) (d : D) (fin : Bool) :
    m.out <+: (m.addHeaders C d fin).1.out := by
  unfold Rm.addHeaders
  cases C.check d with
  | error e => exact List.prefix_refl _
  | ok x =>
    obtain ⟨k, h⟩ := x
    simp only
    split
    · exact List.prefix_refl _
    · have h1 : m.out <+: (if k = .connect then m.emit (.connect h)
          else m.emit (.headers h (decide (k = .interim)) fin)).out := by
        split <;> exact prefix_emit _ _
      split
      · exact h1.trans (prefix_emit _ _)
      · exact h1

theorem loop_out (C : Ctx D H) (E : Env D) (post : Bool) : ∀ (fuel : Nat) (m : Rm D H),
    m.out <+: (m.loop C E post fuel).1.out := by
  intro fuel
  induction fuel with
  | zero => intro m; exact List.prefix_refl _
  | succ fuel ih =>
    intro m
    unfold Rm.loop
    cases hr : m.st.reader with
    | some r =>
      simp only
      cases hx : r.receive (hDecoder C.prio) m.src with
      | error e => exact List.prefix_refl _
      | ok x =>
        obtain ⟨r', s', o, fin⟩ := x
        cases o with
        | none =>
          simp only
          split
          · exact setClosePending_out { m with st := m.st.withReader r', src := s' } post
          · exact List.prefix_refl _
        | some f =>
          simp only
          have h1 := handleFrame_out C E { m with st := m.st.withReader r', src := s' } f fin
          cases hy : Rm.handleFrame C E { m with st := m.st.withReader r', src := s' } f fin with
          | mk m2 o =>
            rw [hy] at h1
            cases o with
            | some e => exact h1
            | none =>
              simp only
              split
              · exact h1
              · split
                · exact h1.trans (setClosePending_out m2 post)
                · exact h1.trans (ih m2)
    | none =>
      simp only
      cases hs : m.st with
      | decoding b f =>
        simp only
        have h1 : m.out <+: (m.decodeHeaders C E b f).1.out := by
          unfold Rm.decodeHeaders
          cases C.refers b with
          | error e => exact List.prefix_refl _
          | ok ref =>
            simp only
            split
            · exact List.prefix_refl _
            · have hd := decode_out C E m b
              cases hx : m.decode C E b with
              | mk m1 o =>
                rw [hx] at hd
                simp only at hd
                cases o with
                | error e => simp only; rw [hd]; exact List.prefix_refl _
                | ok o =>
                  cases o with
                  | none => simp only; rw [hd]; exact List.prefix_refl _
                  | some d =>
                    simp only
                    have := addHeaders_out C m1 d f
                    rw [hd] at this
                    cases hy : m1.addHeaders C d f with
                    | mk m2 o => rw [hy] at this; cases o <;> exact this
        cases hx : m.decodeHeaders C E b f with
        | mk m1 y =>
          obtain ⟨o, go⟩ := y
          rw [hx] at h1
          cases o with
          | some e => exact h1
          | none =>
            cases go with
            | false => exact h1
            | true => exact h1.trans (ih m1)
      | reading l =>
        cases post
        · exact List.prefix_refl _
        · exact prefix_emit _ _
      | _ => exact List.prefix_refl _

theorem got_mono {a b : List (Up D H)} (h : a <+: b) : (got a).length ≤ (got b).length := by
  obtain ⟨c, rfl⟩ := h
  rw [got_append, List.length_append]; omega

theorem readLoop_grows {C : Ctx D H} (E : Env D) : ∀ (fuel : Nat) (room : Nat) (g : Bytes) (m m' : Rm D H),
    m.readLoop C E fuel room g = (m', none) → (got m.out).length + g.length ≤ (got m'.out).length := by
  intro fuel
  induction fuel with
  | zero => intro room g m m' h; cases h
  | succ fuel ih =>
    intro room g m m' h
    have hgd : ∀ bs, (got (m.out ++ [.data bs false])).length = (got m.out).length + bs.length := by
      intro bs; rw [got_data, List.length_append, List.length_map]
    have hgf : ∀ bs, (got (m.out ++ [.closed] ++ [.data bs true])).length = (got m.out).length + bs.length + 1 := by
      intro bs; rw [got_data_fin]; simp only [List.length_append, List.length_map, List.length_singleton]
    cases hs : m.st with
    | reading left =>
      rw [readLoop_reading C E fuel room g m left hs] at h
      simp only at h
      split at h
      · split at h
        · cases h
        · cases h
          simp only [Rm.setClosed, Rm.emit]
          rw [hgf, List.length_append]; omega
      · split at h
        · generalize hm1 : ({ m with st := .waitData Reader.new, src := { m.src with avail := m.src.avail.drop (min left room) } } : Rm D H) = m1 at h
          have ho := loop_out C E false (Rm.fuel { m with st := .reading (left - (m.src.avail.take (min left room)).length), src := { m.src with avail := m.src.avail.drop (min left room) } }) m1
          cases hx : m1.loop C E false (Rm.fuel { m with st := .reading (left - (m.src.avail.take (min left room)).length), src := { m.src with avail := m.src.avail.drop (min left room) } }) with
          | mk m2 o =>
            rw [hx] at h ho
            cases o with
            | some e => cases h
            | none =>
              simp only at h
              have h1 := ih _ _ _ _ h
              have h2 : (got m1.out).length ≤ (got m2.out).length := got_mono ho
              rw [List.length_append] at h1
              have h3 : m1.out = m.out := by rw [← hm1]
              rw [h3] at h2
              omega
        · cases h
          simp only [Rm.emit]
          rw [hgd, List.length_append]; omega
    | closePending =>
      simp only [Rm.readLoop, hs] at h
      cases h
      simp only [Rm.setClosed, Rm.emit]
      rw [hgf]; omega
    | _ =>
      simp only [Rm.readLoop, hs] at h
      cases h
      simp only [Rm.emit]
      rw [hgd]

/-- A read of available bytes of the body passes something on. -/
theorem readLoop_some {C : Ctx D H} (E : Env D) (fuel room left : Nat) (m m' : Rm D H)
    (hs : m.st = .reading left) (hleft : 0 < left) (hroom : 0 < room) (ha : m.src.avail ≠ [])
    (h : m.readLoop C E (fuel + 1) room [] = (m', none)) : (got m.out).length < (got m'.out).length := by
  rw [readLoop_reading C E fuel room [] m left hs] at h
  simp only at h
  have hp : 0 < m.src.avail.length := List.length_pos_iff.mpr ha
  have hi : 0 < (m.src.avail.take (min left room)).length := by rw [List.length_take]; omega
  split at h
  · split at h
    · cases h
    · cases h
      simp only [Rm.setClosed, Rm.emit]
      rw [got_data_fin]; simp only [List.length_append, List.length_map, List.length_singleton]; omega
  · split at h
    · generalize hm1 : ({ m with st := .waitData Reader.new, src := { m.src with avail := m.src.avail.drop (min left room) } } : Rm D H) = m1 at h
      have ho := loop_out C E false (Rm.fuel { m with st := .reading (left - (m.src.avail.take (min left room)).length), src := { m.src with avail := m.src.avail.drop (min left room) } }) m1
      cases hx : m1.loop C E false (Rm.fuel { m with st := .reading (left - (m.src.avail.take (min left room)).length), src := { m.src with avail := m.src.avail.drop (min left room) } }) with
      | mk m2 o =>
        rw [hx] at h ho
        cases o with
        | some e => cases h
        | none =>
          simp only at h
          have h1 := readLoop_grows E _ _ _ _ _ h
          have h2 : (got m1.out).length ≤ (got m2.out).length := got_mono ho
          rw [List.nil_append] at h1
          have h3 : m1.out = m.out := by rw [← hm1]
          rw [h3] at h2
          omega
    · cases h
      simp only [Rm.emit]
      rw [got_data, List.length_append, List.length_map, List.nil_append]; omega

end Neqo.H3
