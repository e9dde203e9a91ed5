import Verif.H3.RecvMessage
import Verif.H3.ReaderProps

/-! # Invariants of receiving a message -/
namespace Neqo.H3.Spec
open Neqo.Codec (Bytes)
open Neqo.H3

variable {D H : Type}

/-- The message itself, without promises. -/
def mains (l : List (Ev D H)) : List (Ev D H) :=
  l.filter fun x => match x with | .promise _ _ => false | _ => true

/-- The promises in it, with the fields in their blocks. -/
def promises (C : Ctx D H) (l : List (Ev D H)) : List (Nat × Except Err D) :=
  l.flatMap fun x => match x with | .promise id b => [(id, C.dec b)] | _ => []

/-- What the application got of the message. -/
def got (l : List (Up D H)) : List (Ev D H) :=
  l.flatMap fun x => match x with
    | .headers h _ fin => .headers h :: (if fin then [.fin] else [])
    | .connect h => [.connect h]
    | .data bs fin => bs.map .byte ++ (if fin then [.fin] else [])
    | _ => []

/-- The promises that were passed on. -/
def promised (l : List (Up D H)) : List (Nat × Except Err D) :=
  l.flatMap fun x => match x with | .promise id d => [(id, .ok d)] | _ => []

end Neqo.H3.Spec

namespace Neqo.H3
open Neqo.Codec
open Spec (Ev MEnd Phase message put mains promises got promised read also cut http3)

variable {D H : Type}

/-- Laws of the QPACK decoder: a block with an unreadable prefix cannot be decoded,
and a block that does not refer to the dynamic table can always be decoded. -/
structure Ctx.Laws (C : Ctx D H) : Prop where
  refers_error : ∀ b e, C.refers b = .error e → C.dec b = .error e
  static : ∀ b n, C.refers b = .ok false → C.ready n b = true

def prep (l : List (Ev D H)) (r : List (Ev D H) × MEnd) : List (Ev D H) × MEnd := (l ++ r.1, r.2)

def msg (C : Ctx D H) (p : Phase) (x : List (Item HFrame) × End) : List (Ev D H) × MEnd :=
  message C p x.1 x.2

abbrev Ctx.kind (C : Ctx D H) : Nat → Spec.Kind HFrame := http3 C.prio

/-- What is received from a state on, by the specification. -/
def fut (C : Ctx D H) (st : RmState) (bs : Bytes) (fin : Bool) : List (Ev D H) × MEnd :=
  match st with
  | .waitHeaders r => msg C .head (from' C.kind ⟨r, 0⟩ bs fin)
  | .decoding b _ => msg C .head (also [.frame (.headers b)] (read C.kind bs fin))
  | .waitData r => msg C .body (from' C.kind ⟨r, 0⟩ bs fin)
  | .reading left => msg C .body (from' C.kind ⟨Reader.new, left⟩ bs fin)
  | .waitFin r => msg C .tail (from' C.kind ⟨r, 0⟩ bs fin)
  | .closePending => ([.fin], .done)
  | _ => ([], .done)

/-- The rest of a stream that has ended is empty. -/
def Fol (f0 : Bool) (rest : Bytes) (fin : Bool) : Prop := f0 = true → rest = [] ∧ fin = true

def Sem (C : Ctx D H) (R : Bytes → Bool → List (Ev D H) × MEnd) (f0 : Bool) (st : RmState)
    (avail : Bytes) (log : List (Ev D H)) : Prop :=
  ∀ rest fin, Fol f0 rest fin →
    if st = .closed ∨ st = .connect then ∃ e, (e = .done ∨ e = .handed) ∧ R rest fin = (log, e)
    else R rest fin = prep log (fut C st (avail ++ rest) fin)

def VSt (C : Ctx D H) : RmState → Prop
  | .waitHeaders r | .waitData r | .waitFin r => VR C.kind r
  | .decoding b _ => b ≠ []
  | .reading left => 0 < left
  | _ => True

def OutRel (C : Ctx D H) (out : List (Up D H)) (blocked : List (Nat × Bytes)) (log : List (Ev D H))
    (pend : Bytes) : Prop :=
  got out ++ pend.map .byte = mains log ∧
    promised out ++ blocked.map (fun x => (x.1, C.dec x.2)) = promises C log

/-- What the decoder waits for. -/
def Wt (C : Ctx D H) (m : Rm D H) : Prop :=
  ∀ b, m.waiting = some b → C.ready m.n b = false ∧
    ((∃ id rest, m.blocked = (id, b) :: rest) ∨ ∃ f, m.st = .decoding b f)

structure RGood (C : Ctx D H) (R : Bytes → Bool → List (Ev D H) × MEnd) (f0 : Bool) (m : Rm D H)
    (log : List (Ev D H)) (pend : Bytes) : Prop where
  sfin : m.src.fin = f0
  sem : Sem C R f0 m.st m.src.avail log
  vst : VSt C m.st
  out : OutRel C m.out m.blocked log pend
  end_ : m.ended = true → m.src.avail = [] ∧ f0 = true
  wait : Wt C m
  wb : m.blocked ≠ [] → m.st ≠ .closed → m.waiting.isSome
  hnd : C.handler = false → m.blocked = []

/-- What may be said when something failed. -/
def Bad (C : Ctx D H) (R : Bytes → Bool → List (Ev D H) × MEnd) (f0 : Bool) (m : Rm D H) : RErr → Prop
  | .panic => False
  | .main e => ∃ log lost pend, OutRel C m.out m.blocked log pend ∧
      ∀ rest fin, Fol f0 rest fin → R rest fin = (log ++ lost, .failed e)
  | .other _ => ∃ log pend, OutRel C m.out m.blocked log pend ∧
      ∀ rest fin, Fol f0 rest fin → ∃ r, (R rest fin).1 = log ++ r

/-- The states in which the body is read. -/
def RmState.inBody : RmState → Bool
  | .waitData _ | .waitFin _ | .reading _ | .closePending => true
  | _ => false

/-- Nothing more can be done with what has arrived. -/
def Quiet (m : Rm D H) : Prop :=
  (∀ r, m.st.reader = some r → m.src = ⟨[], false⟩) ∧
  (∀ b f, m.st = .decoding b f → m.waiting.isSome)

theorem got_append (a b : List (Up D H)) : got (a ++ b) = got a ++ got b := by
  simp [got]

theorem promised_append (a b : List (Up D H)) : promised (a ++ b) = promised a ++ promised b := by
  simp [promised]

theorem mains_append (a b : List (Ev D H)) : mains (a ++ b) = mains a ++ mains b := by
  simp [mains]

theorem promises_append (C : Ctx D H) (a b : List (Ev D H)) :
    promises C (a ++ b) = promises C a ++ promises C b := by
  simp [promises]

/-! ## Reading frames -/

theorem receiveLoop_src (C : Ctx D H) : ∀ (fuel : Nat) (r : Reader) (s : Src), VR C.kind r →
    s.avail.length < fuel → ∀ r' s' b, r.receiveLoop (hDecoder C.prio) fuel s = .ok (r', s', none, b) →
    s' = ⟨[], s.fin⟩ := by
  intro fuel
  induction fuel with
  | zero => intro r s _ h; omega
  | succ fuel ih =>
    intro r s hv hf r' s' b h
    have hmin := minRemaining_pos r hv
    have hto : 0 < min r.minRemaining maxReadSize := by
      have : 0 < maxReadSize := by decide
      omega
    rw [receiveLoop_succ] at h
    generalize hn : min r.minRemaining maxReadSize = n at *
    by_cases he : s.avail = []
    · have h1 : s.avail.take n = [] := by rw [he, List.take_nil]
      have h2 : s.avail.drop n = [] := by rw [he, List.drop_nil]
      rw [if_pos h1, h1, h2] at h
      simp only [pure, Except.pure, if_true] at h
      split at h
      · split at h
        · cases h
        · cases h; rfl
      · cases h; rfl
    · have hpos : 0 < s.avail.length := List.length_pos_iff.mpr he
      have h1 : s.avail.take n ≠ [] := by
        intro h
        have := congrArg List.length h
        simp only [List.length_take, List.length_nil] at this
        omega
      rw [if_neg h1] at h
      have hlen : (s.avail.take n).length ≤ r.minRemaining := by
        rw [List.length_take]; omega
      have hg := consume_good (http3_agrees C.prio) r hv (s.avail.take n) h1 hlen
      cases hc : r.consume (hDecoder C.prio) (s.avail.take n) with
      | error e => rw [hc] at h; cases h
      | ok x =>
        obtain ⟨r2, o⟩ := x
        rw [hc] at hg h
        cases o with
        | some f => cases h
        | none =>
          simp only at h
          split at h
          · rename_i hff
            split at h
            · cases h
            · simp only [pure, Except.pure] at h
              cases h
              have hle : s.avail.length ≤ n := by
                rw [Bool.and_eq_true, decide_eq_true_iff] at hff
                exact hff.2
              rw [List.drop_of_length_le hle]
          · exact ih r2 ⟨s.avail.drop n, s.fin⟩ hg.1 (by simp only [List.length_drop]; omega) r' s' b h

/-- The phase of a state that reads frames. -/
def RmState.phase : RmState → Phase
  | .waitHeaders _ => .head
  | .waitFin _ => .tail
  | _ => .body

theorem fut_reader (C : Ctx D H) {st : RmState} {r : Reader} (h : st.reader = some r) (bs : Bytes)
    (fin : Bool) : fut C st bs fin = msg C st.phase (from' C.kind ⟨r, 0⟩ bs fin) := by
  cases st <;> cases h <;> rfl

theorem reader_with (st : RmState) (r r' : Reader) (h : st.reader = some r) :
    (st.withReader r').reader = some r' ∧ (st.withReader r').phase = st.phase ∧
      (st.withReader r').inBody = st.inBody := by
  cases st <;> cases h <;> exact ⟨rfl, rfl, rfl⟩

theorem reader_open {st : RmState} {r : Reader} (h : st.reader = some r) :
    ¬ (st = .closed ∨ st = .connect) := by
  cases st <;> cases h <;> simp

theorem vst_reader {C : Ctx D H} {st : RmState} {r : Reader} (h : st.reader = some r) :
    VSt C st ↔ VR C.kind r := by
  cases st <;> cases h <;> exact Iff.rfl

theorem reader_not_decoding {st : RmState} {r : Reader} (h : st.reader = some r) (b : Bytes) (f : Bool) :
    st ≠ .decoding b f := by
  intro hh; subst hh; cases h

theorem reader_not_ended {m : Rm D H} {r : Reader} (h : m.st.reader = some r) : m.ended = false := by
  unfold Rm.ended
  cases hs : m.st <;> rw [hs] at h <;> first | rfl | cases h

theorem reader_not_closed {st : RmState} {r : Reader} (h : st.reader = some r) : st ≠ .closed := by
  intro hh; subst hh; cases h

theorem vr_getType {C : Ctx D H} {r : Reader} (h : r.state = .getType {}) : VR C.kind r := by
  unfold VR; rw [h]; intro x hx; cases hx

theorem prep_nil (r : List (Ev D H) × MEnd) : prep [] r = r := rfl

theorem prep_put (log : List (Ev D H)) (x : Ev D H) (r : List (Ev D H) × MEnd) :
    prep log (put x r) = prep (log ++ [x]) r := by
  simp [prep, put]

theorem msg_failed (C : Ctx D H) (p : Phase) (e : Err) : msg C p ([], .failed e) = ([], .failed e) := by
  cases p <;> rfl

theorem prep_failed (log : List (Ev D H)) (e : Err) :
    prep log ([], .failed e) = (log ++ [], MEnd.failed e) := by simp [prep]

/-! ## The end -/

theorem setClosePending_good {C : Ctx D H} {R : Bytes → Bool → List (Ev D H) × MEnd} {f0 : Bool}
    {m : Rm D H} {log : List (Ev D H)} {pend : Bytes} {r : Reader} (post : Bool)
    (hr : m.st.reader = some r) (hf : f0 = true) (ha : m.src = ⟨[], true⟩)
    (hR : ∀ rest fin, Fol f0 rest fin → R rest fin = prep log (msg C m.st.phase ([], .finished)))
    (ho : OutRel C m.out m.blocked log pend) (hw : Wt C m)
    (hwb : m.blocked ≠ [] → m.waiting.isSome) (hh : C.handler = false → m.blocked = []) :
    match m.setClosePending post with
    | (m', none) => RGood C R f0 m' log pend ∧ m'.st = .closePending ∧ m.st.inBody = true
    | (m', some e) => Bad C R f0 m' e := by
  have hsem : m.st.phase ≠ .head → Sem C R f0 .closePending [] log := by
    intro hp rest fin hfol
    rw [if_neg (by simp), hR rest fin hfol]
    cases hph : m.st.phase with
    | head => exact absurd hph hp
    | body => rfl
    | tail => rfl
  have hout : ∀ u : Bool, OutRel C (if u then m.emit .readable else m).out m.blocked log pend := by
    intro u
    cases u
    · exact ho
    · have : got (m.out ++ [Up.readable]) = got m.out := by simp [got]
      have h2 : promised (m.out ++ [Up.readable]) = promised m.out := by simp [promised]
      unfold OutRel
      simp only [if_true, Rm.emit, this, h2]
      exact ho
  have hgood : ∀ (m' : Rm D H), m.st.phase ≠ .head → m'.st = .closePending → m'.src = m.src →
      m'.blocked = m.blocked → m'.waiting = m.waiting → m'.n = m.n →
      OutRel C m'.out m'.blocked log pend → RGood C R f0 m' log pend := by
    intro m' hp h1 h2 h3 h4 h5 h6
    refine ⟨by rw [h2, ha]; exact hf.symm, by rw [h1, h2, ha]; exact hsem hp, by rw [h1]; exact trivial,
      h6, fun _ => by rw [h2, ha]; exact ⟨rfl, hf⟩, ?_, fun h _ => by rw [h4]; exact hwb (h3 ▸ h),
      fun h => by rw [h3]; exact hh h⟩
    intro b hb
    rw [h4] at hb
    obtain ⟨w1, w2⟩ := hw b hb
    refine ⟨by rw [h5]; exact w1, ?_⟩
    rcases w2 with w | ⟨f, w⟩
    · left; rw [h3]; exact w
    · exact absurd w (reader_not_decoding hr b f)
  unfold Rm.setClosePending
  cases hs : m.st with
  | waitHeaders r' =>
    simp only
    refine ⟨log, [], pend, ho, fun rest fin hfol => ?_⟩
    rw [hR rest fin hfol, hs]
    simp [prep, msg, message, RmState.phase]
  | waitData r' =>
    simp only
    refine ⟨hgood _ (by rw [hs]; simp [RmState.phase]) rfl ?_ ?_ ?_ ?_ ?_, trivial, rfl⟩
    · cases post <;> rfl
    · cases post <;> rfl
    · cases post <;> rfl
    · cases post <;> rfl
    · have := hout post
      cases post <;> exact this
  | waitFin r' =>
    simp only
    refine ⟨hgood _ (by rw [hs]; simp [RmState.phase]) rfl ?_ ?_ ?_ ?_ ?_, trivial, rfl⟩
    · cases post <;> rfl
    · cases post <;> rfl
    · cases post <;> rfl
    · cases post <;> rfl
    · have := hout post
      cases post <;> exact this
  | decoding b f => rw [hs] at hr; cases hr
  | reading l => rw [hs] at hr; cases hr
  | closePending => rw [hs] at hr; cases hr
  | closed => rw [hs] at hr; cases hr
  | connect => rw [hs] at hr; cases hr

/-! ## One frame -/

theorem from_payload (C : Ctx D H) (r r' : Reader) {left : Nat} (h : 0 < left) (bs : Bytes) (fin : Bool) :
    from' C.kind ⟨r, left⟩ bs fin = from' C.kind ⟨r', left⟩ bs fin := by
  simp [from', h]

theorem wt_reader {C : Ctx D H} {m m' : Rm D H} {r : Reader} (hr : m.st.reader = some r) (hw : Wt C m)
    (h1 : m'.waiting = m.waiting) (h2 : m'.blocked = m.blocked) (h3 : m'.n = m.n) : Wt C m' := by
  intro b hb
  rw [h1] at hb
  obtain ⟨w1, w2⟩ := hw b hb
  refine ⟨by rw [h3]; exact w1, ?_⟩
  rcases w2 with w | ⟨f, w⟩
  · left; rw [h2]; exact w
  · exact absurd w (reader_not_decoding hr b f)

theorem mains_promise (log : List (Ev D H)) (id : Nat) (b : Bytes) :
    mains (log ++ [.promise id b]) = mains log := by simp [mains]

theorem promises_promise (C : Ctx D H) (log : List (Ev D H)) (id : Nat) (b : Bytes) :
    promises C (log ++ [.promise id b]) = promises C log ++ [(id, C.dec b)] := by simp [promises]

theorem handlePromise_good {C : Ctx D H} {R : Bytes → Bool → List (Ev D H) × MEnd} {f0 : Bool}
    (E : Env D) {m : Rm D H} {log : List (Ev D H)} {pend : Bytes} {r : Reader} {id : Nat} {b : Bytes}
    (hr : m.st.reader = some r) (hv : VR C.kind r) (hsf : m.src.fin = f0)
    (hR : ∀ rest fin, Fol f0 rest fin → R rest fin = prep log (msg C m.st.phase
      (also [.frame (.pushPromise id b)] (from' C.kind ⟨r, 0⟩ (m.src.avail ++ rest) fin))))
    (ho : OutRel C m.out m.blocked log pend) (hw : Wt C m)
    (hwb : m.blocked ≠ [] → m.waiting.isSome) (hh : C.handler = false → m.blocked = []) :
    match m.handlePromise C E id b with
    | (m', some e) => Bad C R f0 m' e
    | (m', none) => (∃ log', RGood C R f0 m' log' pend) ∧ m'.src = m.src ∧ m'.st = m.st := by
  have hmsg : ∀ x, msg C m.st.phase (also [.frame (.pushPromise id b)] x) =
      if C.handler then put (.promise id b) (msg C m.st.phase x)
      else ([], .failed .httpFrameUnexpected) := by
    intro x
    cases m.st.phase <;> simp [msg, also, message]
  unfold Rm.handlePromise
  by_cases hc : C.handler = true
  · rw [if_neg (by simp [hc])]
    have hR' : ∀ rest fin, Fol f0 rest fin → R rest fin =
        prep (log ++ [.promise id b]) (fut C m.st (m.src.avail ++ rest) fin) := by
      intro rest fin hfol
      rw [hR rest fin hfol, hmsg, if_pos hc, prep_put, fut_reader C hr]
    have hsem : Sem C R f0 m.st m.src.avail (log ++ [.promise id b]) := by
      intro rest fin hfol
      rw [if_neg (reader_open hr)]
      exact hR' rest fin hfol
    have hvst : VSt C m.st := (vst_reader hr).mpr hv
    have hother : ∀ e, OutRel C m.out m.blocked log pend → Bad C R f0 m (.other e) := by
      intro e ho
      exact ⟨log, pend, ho, fun rest fin hfol => ⟨_, by rw [hR rest fin hfol]; rfl⟩⟩
    by_cases hb : m.blocked = []
    · rw [if_neg (by simp [hb])]
      unfold Rm.decode
      cases hrd : C.ready m.n b with
      | true =>
        rw [if_pos rfl]
        cases hd : C.dec b with
        | error e => exact hother e ho
        | ok d =>
          simp only
          cases hacc : E.accept id d with
          | error e => exact hother e ho
          | ok u =>
            simp only
            refine ⟨⟨_, ⟨hsf, hsem, hvst, ?_, fun h => ?_, wt_reader hr hw rfl rfl rfl, fun h _ => hwb h,
              hh⟩⟩, rfl, rfl⟩
            · refine ⟨?_, ?_⟩
              · rw [mains_promise]
                have : got (m.out ++ [Up.promise id d]) = got m.out := by simp [got]
                simp only [Rm.emit, this]
                exact ho.1
              · rw [promises_promise, ← ho.2]
                simp [Rm.emit, promised, hb, hd]
            · have := reader_not_ended hr
              unfold Rm.ended at h this
              simp only [Rm.emit] at h
              rw [this] at h; cases h
      | false =>
        rw [if_neg (by simp)]
        have hnone : m.waiting = none := by
          cases hwt : m.waiting with
          | none => rfl
          | some b0 =>
            obtain ⟨_, ⟨i, rest, h⟩ | ⟨f, h⟩⟩ := hw b0 hwt
            · rw [hb] at h; cases h
            · exact absurd h (reader_not_decoding hr _ _)
        rw [if_neg (by simp [hnone])]
        cases hroom : E.room with
        | false => exact hother _ ho
        | true =>
          simp only [if_true]
          refine ⟨⟨_, ⟨hsf, hsem, hvst, ?_, fun h => ?_, ?_, fun _ _ => rfl, fun h => by
            rw [hc] at h; cases h⟩⟩, trivial, trivial⟩
          · refine ⟨by rw [mains_promise]; exact ho.1, ?_⟩
            rw [promises_promise, ← ho.2, hb]
            simp
          · have := reader_not_ended hr
            unfold Rm.ended at h this
            simp only at h
            rw [this] at h; cases h
          · intro b1 h1
            simp only [Option.some.injEq] at h1
            subst h1
            exact ⟨hrd, Or.inl ⟨id, [], rfl⟩⟩
    · rw [if_pos hb]
      simp only
      refine ⟨⟨_, ⟨hsf, hsem, hvst, ?_, fun h => ?_, ?_, fun _ _ => hwb hb, fun h => by
            rw [hc] at h; cases h⟩⟩, trivial, trivial⟩
      · refine ⟨by rw [mains_promise]; exact ho.1, ?_⟩
        rw [promises_promise, ← ho.2]
        simp
      · have := reader_not_ended hr
        unfold Rm.ended at h this
        simp only at h
        rw [this] at h; cases h
      · intro b1 h1
        obtain ⟨w1, ⟨i, rest, w⟩ | ⟨f, w⟩⟩ := hw b1 h1
        · exact ⟨w1, Or.inl ⟨i, rest ++ [(id, b)], by simp only [w]; rfl⟩⟩
        · exact absurd w (reader_not_decoding hr _ _)
  · have hc' : C.handler = false := by simpa using hc
    rw [if_pos (by simp [hc'])]
    refine ⟨log, [], pend, ho, fun rest fin hfol => ?_⟩
    rw [hR rest fin hfol, hmsg, if_neg hc, prep_failed]

theorem handleFrame_good {C : Ctx D H} {R : Bytes → Bool → List (Ev D H) × MEnd} {f0 : Bool}
    (E : Env D) {m : Rm D H} {log : List (Ev D H)} {pend : Bytes} {r : Reader} {f : HFrame} {fin : Bool}
    (hr : m.st.reader = some r) (hst : r.state = .getType {}) (hsf : m.src.fin = f0)
    (hfin : fin = (f0 && decide (m.src.avail.length = 0)))
    (hR : ∀ rest fin, Fol f0 rest fin → R rest fin = prep log (msg C m.st.phase
      (also [.frame f] (from' C.kind ⟨r, hPayload f⟩ (m.src.avail ++ rest) fin))))
    (ho : OutRel C m.out m.blocked log pend) (hw : Wt C m)
    (hwb : m.blocked ≠ [] → m.waiting.isSome) (hh : C.handler = false → m.blocked = []) :
    match m.handleFrame C E f fin with
    | (m', some e) => Bad C R f0 m' e
    | (m', none) => (∃ log', RGood C R f0 m' log' pend) ∧ m'.src = m.src ∧
        ((∃ r', m'.st.reader = some r' ∧ r'.state = .getType {}) ∨ (∃ b, m'.st = .decoding b fin) ∨
          (∃ l, m'.st = .reading l ∧ fin = false)) ∧
        (m.st.inBody = true → m'.st.inBody = true) := by
  have hfail : ∀ e, (∀ x, msg C m.st.phase (also [.frame f] x) = ([], .failed e)) →
      Bad C R f0 m (.main e) := by
    intro e h
    refine ⟨log, [], pend, ho, fun rest fin hfol => ?_⟩
    rw [hR rest fin hfol, h, prep_failed]
  have hunexp : ∀ x, (∀ b, f ≠ .headers b) → (∀ l, f ≠ .data l) → (∀ i b, f ≠ .pushPromise i b) →
      msg C m.st.phase (also [.frame f] x) = ([], .failed .httpFrameUnexpected) := by
    intro x h1 h2 h3
    cases f with
    | headers b => exact absurd rfl (h1 b)
    | data b => exact absurd rfl (h2 b)
    | pushPromise i b => exact absurd rfl (h3 i b)
    | _ => cases m.st.phase <;> simp [msg, also, message]
  have hnotended : ∀ m' : Rm D H, m'.st = m.st → m'.ended = true → False := by
    intro m' h1 h2
    have := reader_not_ended hr
    unfold Rm.ended at h2 this
    rw [h1, this] at h2; cases h2
  cases f with
  | headers b =>
    have hR' : ∀ rest fin, Fol f0 rest fin → R rest fin = prep log (msg C m.st.phase
      (also [.frame (.headers b)] (read C.kind (m.src.avail ++ rest) fin))) := by
      intro rest fin hfol
      rw [hR rest fin hfol]
      simp only [hPayload]
      rw [from_reset r hst]
    unfold Rm.handleFrame Rm.handleHeaders
    cases hs : m.st with
    | waitHeaders r0 =>
      simp only
      by_cases hb : b = []
      · rw [if_pos hb]
        refine hfail _ fun x => ?_
        rw [hs]
        simp [msg, also, message, RmState.phase, hb]
      · rw [if_neg hb]
        simp only
        refine ⟨⟨log, ⟨hsf, ?_, hb, ho, fun h => ?_, wt_reader hr hw rfl rfl rfl, fun h _ => hwb h, hh⟩⟩,
          trivial, Or.inr (Or.inl ⟨b, rfl⟩), fun h => by cases h⟩
        · intro rest fin hfol
          rw [if_neg (by simp), hR' rest fin hfol, hs]
          rfl
        · simp only [Rm.ended] at h
          rw [h] at hfin
          have := hfin.symm
          rw [Bool.and_eq_true, decide_eq_true_iff, List.length_eq_zero_iff] at this
          exact ⟨this.2, this.1⟩
    | waitData r0 =>
      simp only
      refine ⟨⟨log, ⟨hsf, ?_, vr_getType (C := C) (r := Reader.new) rfl, ho, fun h => by simp [Rm.ended] at h,
        wt_reader hr hw rfl rfl rfl, fun h _ => hwb h, hh⟩⟩, trivial, Or.inl ⟨Reader.new, rfl, rfl⟩,
        fun _ => rfl⟩
      intro rest fin hfol
      rw [if_neg (by simp), hR' rest fin hfol, hs]
      simp only [fut, from_reset Reader.new rfl]
      simp [msg, also, message, RmState.phase]
    | waitFin r0 =>
      simp only
      refine hfail _ fun x => ?_
      rw [hs]
      simp [msg, also, message, RmState.phase]
    | decoding b f => rw [hs] at hr; cases hr
    | reading l => rw [hs] at hr; cases hr
    | closePending => rw [hs] at hr; cases hr
    | closed => rw [hs] at hr; cases hr
    | connect => rw [hs] at hr; cases hr
  | data len =>
    unfold Rm.handleFrame Rm.handleData
    cases hs : m.st with
    | waitHeaders r0 =>
      refine hfail _ fun x => ?_
      rw [hs]
      simp [msg, also, message, RmState.phase]
    | waitFin r0 =>
      refine hfail _ fun x => ?_
      rw [hs]
      simp [msg, also, message, RmState.phase]
    | waitData r0 =>
      obtain rfl : r0 = r := by rw [hs] at hr; cases hr; rfl
      have hbody : ∀ x, msg C m.st.phase (also [.frame (.data len)] x) = msg C .body x := by
        intro x; rw [hs]; simp [msg, also, message, RmState.phase]
      simp only
      by_cases hl : len > 0
      · rw [if_pos hl]
        cases hf : fin with
        | true =>
          simp only [if_true]
          rw [hf] at hfin
          have := hfin.symm
          rw [Bool.and_eq_true, decide_eq_true_iff, List.length_eq_zero_iff] at this
          refine ⟨log, [], pend, ho, fun rest fin hfol => ?_⟩
          obtain ⟨rfl, rfl⟩ := hfol this.1
          rw [hR [] true hfol, hbody, this.2]
          have : from' C.kind ⟨r0, hPayload (.data len)⟩ ([] ++ []) true =
              ([], .failed .httpFrame) := by
            simp [from', hPayload, hl, also, cut]
          rw [this, msg_failed, prep_failed]
        | false =>
          simp only [Bool.false_eq_true, if_false]
          refine ⟨⟨log, ⟨hsf, ?_, hl, ho, fun h => by simp [Rm.ended] at h,
            wt_reader hr hw rfl rfl rfl, fun h _ => hwb h, hh⟩⟩, trivial, Or.inr (Or.inr ⟨len, rfl, trivial⟩),
            fun _ => rfl⟩
          intro rest fin hfol
          rw [if_neg (by simp), hR rest fin hfol, hbody]
          simp only [fut, hPayload]
          rw [from_payload C r0 Reader.new hl]
      · rw [if_neg hl]
        obtain rfl : len = 0 := by omega
        simp only
        refine ⟨⟨log, ⟨hsf, ?_, ?_, ho, fun h => (hnotended m rfl h).elim, hw, fun h _ => hwb h, hh⟩⟩,
          trivial, Or.inl ⟨r0, by rw [hs]; rfl, hst⟩, fun _ => by rw [hs]; rfl⟩
        · intro rest fin hfol
          rw [if_neg (reader_open hr), hR rest fin hfol, hbody, fut_reader C hr]
          rw [hs]; rfl
        · rw [hs]; exact vr_getType hst
    | decoding b f => rw [hs] at hr; cases hr
    | reading l => rw [hs] at hr; cases hr
    | closePending => rw [hs] at hr; cases hr
    | closed => rw [hs] at hr; cases hr
    | connect => rw [hs] at hr; cases hr
  | pushPromise id b =>
    have := handlePromise_good E (pend := pend) hr (vr_getType hst) hsf hR ho hw hwb hh
    show match m.handlePromise C E id b with
      | (m', some e) => Bad C R f0 m' e
      | (m', none) => _
    cases hx : m.handlePromise C E id b with
    | mk m' o =>
      rw [hx] at this
      cases o with
      | some e => exact this
      | none =>
        simp only at this ⊢
        exact ⟨this.1, this.2.1, Or.inl ⟨r, by rw [this.2.2]; exact hr, hst⟩, by rw [this.2.2]; exact fun h => h⟩
  | cancelPush _ => exact hfail _ fun x => hunexp x (by simp) (by simp) (by simp)
  | settings _ => exact hfail _ fun x => hunexp x (by simp) (by simp) (by simp)
  | goaway _ => exact hfail _ fun x => hunexp x (by simp) (by simp) (by simp)
  | maxPushId _ => exact hfail _ fun x => hunexp x (by simp) (by simp) (by simp)
  | grease => exact hfail _ fun x => hunexp x (by simp) (by simp) (by simp)
  | priorityUpdateRequest _ _ => exact hfail _ fun x => hunexp x (by simp) (by simp) (by simp)
  | priorityUpdatePush _ _ => exact hfail _ fun x => hunexp x (by simp) (by simp) (by simp)

/-! ## Header sections -/

theorem fut_decoding (C : Ctx D H) (b : Bytes) (f : Bool) (hb : b ≠ []) (bs : Bytes) (fin : Bool) :
    fut C (.decoding b f) bs fin = match Spec.fields C b with
      | .error e => ([], .failed e)
      | .ok (.interim, h) => put (.headers h) (msg C .head (read C.kind bs fin))
      | .ok (.final, h) => put (.headers h) (msg C .body (read C.kind bs fin))
      | .ok (.connect, h) => ([.connect h], .handed) := by
  simp only [fut, msg, also, List.singleton_append, message, if_neg hb]
  rfl

theorem read_nil_true (C : Ctx D H) : read C.kind [] true = ([], .finished) := rfl

theorem addHeaders_good {C : Ctx D H} {R : Bytes → Bool → List (Ev D H) × MEnd} {f0 : Bool}
    {m : Rm D H} {log : List (Ev D H)} {b : Bytes} {f : Bool} {d : D}
    (hs : m.st = .decoding b f) (hg : RGood C R f0 m log []) (hd : C.dec b = .ok d)
    (hrd : C.ready m.n b = true) :
    match m.addHeaders C d f with
    | (m', some e) => Bad C R f0 m' e
    | (m', none) => (∃ log', RGood C R f0 m' log' []) ∧ m'.src = m.src ∧ m'.st.inBody = (!f && m'.st.reader.isSome && m'.st.phase = .body) ∧
      ((∃ r, m'.st.reader = some r ∧ f = false) ∨ m'.st = .closed ∨ m'.st = .connect) := by
  have hb : b ≠ [] := by have := hg.vst; rw [hs] at this; exact this
  have hsem : ∀ rest fin, Fol f0 rest fin → R rest fin =
      prep log (fut C (.decoding b f) (m.src.avail ++ rest) fin) := by
    intro rest fin hfol
    have := hg.sem rest fin hfol
    rw [hs, if_neg (by simp)] at this
    exact this
  have hfl : ∀ k h, C.check d = .ok (k, h) → Spec.fields C b = .ok (k, h) := by
    intro k h hc; simp only [Spec.fields, hd, hc]
  have hend : f = true → m.src.avail = [] ∧ f0 = true := by
    intro hf
    apply hg.end_
    simp [Rm.ended, hs, hf]
  have hwt : ∀ b', m.waiting = some b' → ∃ id rest, m.blocked = (id, b') :: rest := by
    intro b' h'
    obtain ⟨w1, w | ⟨f', w⟩⟩ := hg.wait b' h'
    · exact w
    · rw [hs] at w
      cases w
      rw [hrd] at w1; cases w1
  have hwb : m.blocked ≠ [] → m.waiting.isSome := fun h => hg.wb h (by rw [hs]; simp)
  have hwt' : ∀ m' : Rm D H, m'.waiting = m.waiting → m'.blocked = m.blocked → m'.n = m.n → Wt C m' := by
    intro m' h1 h2 h3 b' h'
    rw [h1] at h'
    exact ⟨by rw [h3]; exact (hg.wait b' h').1, Or.inl (by rw [h2]; exact hwt b' h')⟩
  obtain ⟨ho1, ho2⟩ := hg.out
  rw [List.map_nil, List.append_nil] at ho1
  unfold Rm.addHeaders
  cases hc : C.check d with
  | error e =>
    refine ⟨log, [], [], hg.out, fun rest fin hfol => ?_⟩
    have hfe : Spec.fields C b = .error e := by simp only [Spec.fields, hd, hc]
    rw [hsem rest fin hfol, fut_decoding C b f hb, hfe, prep_failed]
  | ok x =>
    obtain ⟨k, h⟩ := x
    simp only
    have hfk := hfl k h hc
    have hfut : ∀ rest fin, Fol f0 rest fin → R rest fin = prep log (match k with
        | .interim => put (.headers h) (msg C .head (read C.kind (m.src.avail ++ rest) fin))
        | .final => put (.headers h) (msg C .body (read C.kind (m.src.avail ++ rest) fin))
        | .connect => ([.connect h], .handed)) := by
      intro rest fin hfol
      have e1 := fut_decoding C b f hb (m.src.avail ++ rest) fin
      rw [hfk] at e1
      rw [hsem rest fin hfol, e1]
      cases k <;> rfl
    have hclosedW : ∀ m' : Rm D H, m'.waiting = (if m.blocked = [] then m.waiting else none) →
        m'.blocked = m.blocked → Wt C m' := by
      intro m' h1 h2 b' h'
      rw [h1] at h'
      by_cases hbl : m.blocked = []
      · rw [if_pos hbl] at h'
        obtain ⟨_, _, w⟩ := hwt b' h'
        rw [hbl] at w; cases w
      · rw [if_neg hbl] at h'; cases h'
    cases k with
    | interim =>
      cases f with
      | true =>
        simp only [Bool.true_and, decide_true, if_true]
        obtain ⟨ha, hf0⟩ := hend rfl
        refine ⟨log, [.headers h], [], hg.out, fun rest fin hfol => ?_⟩
        obtain ⟨rfl, rfl⟩ := hfol hf0
        rw [hfut [] true (fun _ => ⟨rfl, rfl⟩), ha]
        simp only [List.append_nil, read_nil_true]
        simp [prep, put, msg, message]
      | false =>
        simp only [Bool.false_and, Bool.false_eq_true, if_false, reduceCtorEq]
        refine ⟨⟨log ++ [.headers h], ⟨hg.sfin, ?_, vr_getType (C := C) (r := Reader.new) rfl, ?_,
          fun h => by simp [Rm.ended] at h, hwt' _ rfl rfl rfl, fun h _ => hwb h, hg.hnd⟩⟩, rfl, rfl,
          Or.inl ⟨Reader.new, rfl, trivial⟩⟩
        · intro rest fin hfol
          rw [if_neg (by simp), hfut rest fin hfol]
          simp only [fut, prep_put]
          rw [from_reset Reader.new rfl]; rfl
        · refine ⟨?_, ?_⟩
          · rw [mains_append, ← ho1]; simp [Rm.emit, got, mains]
          · rw [promises_append, ← ho2]; simp [Rm.emit, promised, promises]
    | final =>
      cases f with
      | true =>
        simp only [Bool.true_and, decide_false, Bool.false_eq_true, if_true, if_false, reduceCtorEq]
        obtain ⟨ha, hf0⟩ := hend rfl
        refine ⟨⟨log ++ [.headers h, .fin], ⟨hg.sfin, ?_, trivial, ?_,
          fun _ => ⟨ha, hf0⟩, hclosedW _ rfl rfl, fun _ h => absurd rfl h, hg.hnd⟩⟩, rfl, rfl,
          Or.inr (Or.inl rfl)⟩
        · intro rest fin hfol
          obtain ⟨rfl, rfl⟩ := hfol hf0
          refine if_pos (Or.inl rfl) ▸ ⟨.done, Or.inl rfl, ?_⟩
          rw [hfut [] true hfol, ha]
          simp only [List.append_nil, read_nil_true]
          simp [prep, put, msg, message]
        · refine ⟨?_, ?_⟩
          · rw [mains_append, ← ho1]; simp [Rm.setClosed, Rm.emit, got, mains]
          · rw [promises_append, ← ho2]; simp [Rm.setClosed, Rm.emit, promised, promises]
      | false =>
        simp only [Bool.false_and, Bool.false_eq_true, if_false, reduceCtorEq]
        refine ⟨⟨log ++ [.headers h], ⟨hg.sfin, ?_, vr_getType (C := C) (r := Reader.new) rfl, ?_,
          fun h => by simp [Rm.ended] at h, hwt' _ rfl rfl rfl, fun h _ => hwb h, hg.hnd⟩⟩, rfl, rfl,
          Or.inl ⟨Reader.new, rfl, trivial⟩⟩
        · intro rest fin hfol
          rw [if_neg (by simp), hfut rest fin hfol]
          simp only [fut, prep_put]
          rw [from_reset Reader.new rfl]; rfl
        · refine ⟨?_, ?_⟩
          · rw [mains_append, ← ho1]; simp [Rm.emit, got, mains]
          · rw [promises_append, ← ho2]; simp [Rm.emit, promised, promises]
    | connect =>
      cases f with
      | true =>
        simp only [Bool.true_and, decide_false, Bool.false_eq_true, if_true, if_false, reduceCtorEq]
        obtain ⟨ha, hf0⟩ := hend rfl
        refine ⟨⟨log ++ [.connect h], ⟨hg.sfin, ?_, trivial, ?_,
          fun _ => ⟨ha, hf0⟩, hclosedW _ rfl rfl, fun _ h => absurd rfl h, hg.hnd⟩⟩, rfl, rfl,
          Or.inr (Or.inl rfl)⟩
        · intro rest fin hfol
          refine if_pos (Or.inl rfl) ▸ ⟨.handed, Or.inr rfl, ?_⟩
          rw [hfut rest fin hfol]
          simp [prep]
        · refine ⟨?_, ?_⟩
          · rw [mains_append, ← ho1]; simp [Rm.setClosed, Rm.emit, got, mains]
          · rw [promises_append, ← ho2]; simp [Rm.setClosed, Rm.emit, promised, promises]
      | false =>
        simp only [Bool.false_and, Bool.false_eq_true, if_true, if_false]
        refine ⟨⟨log ++ [.connect h], ⟨hg.sfin, ?_, trivial, ?_,
          fun h => by simp [Rm.ended] at h, hwt' _ rfl rfl rfl, fun h _ => hwb h, hg.hnd⟩⟩, rfl, rfl,
          Or.inr (Or.inr trivial)⟩
        · intro rest fin hfol
          refine if_pos (Or.inr rfl) ▸ ⟨.handed, Or.inr rfl, ?_⟩
          rw [hfut rest fin hfol]
          simp [prep]
        · refine ⟨?_, ?_⟩
          · rw [mains_append, ← ho1]; simp [Rm.emit, got, mains]
          · rw [promises_append, ← ho2]; simp [Rm.emit, promised, promises]

theorem decodeHeaders_good {C : Ctx D H} (hl : C.Laws) {R : Bytes → Bool → List (Ev D H) × MEnd}
    {f0 : Bool} (E : Env D) {m : Rm D H} {log : List (Ev D H)} {b : Bytes} {f : Bool}
    (hs : m.st = .decoding b f) (hg : RGood C R f0 m log []) :
    match m.decodeHeaders C E b f with
    | (m', some e, _) => Bad C R f0 m' e
    | (m', none, true) => (∃ log', RGood C R f0 m' log' []) ∧ m'.src = m.src ∧
        ∃ r, m'.st.reader = some r ∧ f = false
    | (m', none, false) => (∃ log', RGood C R f0 m' log' []) ∧ Quiet m' ∧ m'.st ≠ .closePending ∧
        m'.src.avail.length ≤ m.src.avail.length := by
  have hb : b ≠ [] := by have := hg.vst; rw [hs] at this; exact this
  have hsem : ∀ rest fin, Fol f0 rest fin → R rest fin =
      prep log (fut C (.decoding b f) (m.src.avail ++ rest) fin) := by
    intro rest fin hfol
    have := hg.sem rest fin hfol
    rw [hs, if_neg (by simp)] at this
    exact this
  have hdecfail : ∀ e, C.dec b = .error e → Bad C R f0 m (.main e) := by
    intro e he
    refine ⟨log, [], [], hg.out, fun rest fin hfol => ?_⟩
    have hfe : Spec.fields C b = .error e := by simp only [Spec.fields, he]
    rw [hsem rest fin hfol, fut_decoding C b f hb, hfe, prep_failed]
  have hquiet : ∀ m' : Rm D H, m'.st = m.st → m'.waiting.isSome → Quiet m' := by
    intro m' h1 h2
    refine ⟨fun r hr => ?_, fun _ _ _ => h2⟩
    rw [h1, hs] at hr; cases hr
  unfold Rm.decodeHeaders
  cases hrf : C.refers b with
  | error e => exact hdecfail e (hl.refers_error b e hrf)
  | ok ref =>
    simp only
    by_cases h1 : (ref && decide (m.blocked ≠ [])) = true
    · rw [if_pos h1]
      rw [Bool.and_eq_true, decide_eq_true_iff] at h1
      exact ⟨⟨log, hg⟩, hquiet m rfl (hg.wb h1.2 (by rw [hs]; simp)), by rw [hs]; simp, Nat.le_refl _⟩
    · rw [if_neg h1]
      unfold Rm.decode
      cases hrd : C.ready m.n b with
      | true =>
        rw [if_pos rfl]
        cases hd : C.dec b with
        | error e => exact hdecfail e hd
        | ok d =>
          simp only
          have := addHeaders_good hs hg hd hrd
          cases hx : m.addHeaders C d f with
          | mk m' o =>
            rw [hx] at this
            cases o with
            | some e => exact this
            | none =>
              simp only at this ⊢
              obtain ⟨t1, t2, t3, t4⟩ := this
              rcases t4 with ⟨r, hr, hf⟩ | h | h
              · have : (!(decide (m'.st = .closed) || decide (m'.st = .connect))) = true := by
                  have := reader_open hr
                  simpa using this
                rw [this]
                exact ⟨t1, t2, r, hr, hf⟩
              · simp only [h, decide_true, Bool.true_or, Bool.not_true]
                exact ⟨t1, ⟨fun r hr => (by rw [h] at hr; cases hr), fun b f hh => (by rw [h] at hh; cases hh)⟩,
                  by simp, by rw [t2]⟩
              · simp only [h, decide_true, Bool.or_true, Bool.not_true]
                exact ⟨t1, ⟨fun r hr => (by rw [h] at hr; cases hr), fun b f hh => (by rw [h] at hh; cases hh)⟩,
                  by simp, by rw [t2]⟩
      | false =>
        rw [if_neg (by simp)]
        have hbl : m.blocked = [] := by
          by_cases hbl : m.blocked = []
          · exact hbl
          · exfalso
            cases ref with
            | true => exact h1 (by simp [hbl])
            | false => rw [hl.static b m.n hrf] at hrd; cases hrd
        by_cases hws : m.waiting.isSome
        · rw [if_pos hws]
          exact ⟨⟨log, hg⟩, hquiet m rfl hws, by rw [hs]; simp, Nat.le_refl _⟩
        · rw [if_neg hws]
          cases hroom : E.room with
          | false =>
            exact ⟨log, [], hg.out, fun rest fin hfol => ⟨_, by rw [hsem rest fin hfol]; rfl⟩⟩
          | true =>
            simp only [if_true]
            refine ⟨⟨log, ⟨hg.sfin, hg.sem, hg.vst, hg.out, hg.end_, ?_, fun _ _ => rfl, hg.hnd⟩⟩,
              hquiet _ rfl rfl, by rw [hs]; simp, Nat.le_refl _⟩
            intro b' h'
            simp only [Option.some.injEq] at h'
            subst h'
            exact ⟨hrd, Or.inr ⟨f, hs⟩⟩

/-! ## The loop -/

/-- A bound for the passes. -/
def Rm.passes (m : Rm D H) : Nat := 2 * m.src.avail.length + (if m.st.isDecoding then 1 else 0)

theorem loop_good {C : Ctx D H} (hl : C.Laws) {R : Bytes → Bool → List (Ev D H) × MEnd}
    {f0 : Bool} (E : Env D) (post : Bool) : ∀ (fuel : Nat) (m : Rm D H) (log : List (Ev D H)) (pend : Bytes),
    RGood C R f0 m log pend → m.st ≠ .closed → m.st ≠ .closePending →
    (pend = [] ∨ m.st.inBody = true) → m.passes < fuel →
    match m.loop C E post fuel with
    | (m', some e) => Bad C R f0 m' e
    | (m', none) => (∃ log', RGood C R f0 m' log' pend) ∧ Quiet m' ∧
        (m.st.inBody = true → m'.st.inBody = true) ∧ m'.src.avail.length ≤ m.src.avail.length := by
  intro fuel
  induction fuel with
  | zero => intro m log pend _ _ _ _ h; omega
  | succ fuel ih =>
    intro m log pend hg hc hcp hp hf
    unfold Rm.loop
    cases hr : m.st.reader with
    | some r =>
      simp only
      have hv : VR C.kind r := (vst_reader hr).mp hg.vst
      have hrecv := receiveLoop_good (http3_agrees C.prio) (m.src.avail.length + 1) r m.src hv (by omega)
      have hsrc := receiveLoop_src C (m.src.avail.length + 1) r m.src hv (by omega)
      have hfol : ∀ rest fin, Fol f0 rest fin → Follows m.src rest fin := by
        intro rest fin h hh; exact h (by rw [← hg.sfin]; exact hh)
      have hsem : ∀ rest fin, Fol f0 rest fin → R rest fin =
          prep log (msg C m.st.phase (from' C.kind ⟨r, 0⟩ (m.src.avail ++ rest) fin)) := by
        intro rest fin h
        have := hg.sem rest fin h
        rw [if_neg (reader_open hr), fut_reader C hr] at this
        exact this
      have hwb : m.blocked ≠ [] → m.waiting.isSome := fun h => hg.wb h hc
      show (match (match r.receiveLoop (hDecoder C.prio) (m.src.avail.length + 1) m.src with
        | .error e => (m, some (.main e))
        | .ok (r', s', none, fin) =>
          let m1 := { m with st := m.st.withReader r', src := s' }
          if fin then m1.setClosePending post else (m1, none)
        | .ok (r', s', some f, fin) =>
          let m1 := { m with st := m.st.withReader r', src := s' }
          match m1.handleFrame C E f fin with
          | (m2, some e) => (m2, some e)
          | (m2, none) =>
            if m2.st = .closed then (m2, none)
            else if fin && !m2.st.isDecoding then m2.setClosePending post
            else m2.loop C E post fuel : Rm D H × Option RErr) with
        | (m', some e) => Bad C R f0 m' e
        | (m', none) => _)
      cases hx : r.receiveLoop (hDecoder C.prio) (m.src.avail.length + 1) m.src with
      | error e =>
        rw [hx] at hrecv
        simp only
        refine ⟨log, [], pend, hg.out, fun rest fin h => ?_⟩
        rw [hsem rest fin h, hrecv rest fin (hfol rest fin h), msg_failed, prep_failed]
      | ok x =>
        obtain ⟨r', s', o, fin⟩ := x
        rw [hx] at hrecv hsrc
        obtain ⟨hw1, hw2, hw3⟩ := reader_with m.st r r' hr
        cases o with
        | none =>
          have hs' := hsrc r' s' fin rfl
          simp only
          cases fin with
          | true =>
            obtain ⟨g1, g2⟩ := hrecv
            simp only [if_true]
            have hf0 : f0 = true := by rw [← hg.sfin]; exact g1
            have := setClosePending_good (C := C) (R := R) (f0 := f0)
              (m := { m with st := m.st.withReader r', src := s' }) (log := log) (pend := pend) post hw1 hf0
              (by simp only [hs', g1]) (by
                intro rest fin h
                obtain ⟨rfl, rfl⟩ := h hf0
                rw [hsem [] true h, List.append_nil, g2, ← hw2]) hg.out
              (wt_reader hr hg.wait rfl rfl rfl) hwb hg.hnd
            cases hy : Rm.setClosePending { m with st := m.st.withReader r', src := s' } post with
            | mk m' o =>
              rw [hy] at this
              cases o with
              | some e => exact this
              | none =>
                simp only at this ⊢
                obtain ⟨t1, t2, t3⟩ := this
                refine ⟨⟨log, t1⟩, ⟨fun r hr => (by rw [t2] at hr; cases hr),
                  fun b f hh => (by rw [t2] at hh; cases hh)⟩, fun _ => by rw [t2]; rfl, ?_⟩
                rw [(t1.end_ (by simp [Rm.ended, t2])).1]; simp
          | false =>
            obtain ⟨g1, g2, g3⟩ := hrecv
            simp only [Bool.false_eq_true, if_false]
            refine ⟨⟨log, ⟨?_, ?_, (vst_reader hw1).mpr g1, hg.out, fun h => ?_,
              wt_reader hr hg.wait rfl rfl rfl, fun h _ => hwb h, hg.hnd⟩⟩, ⟨fun _ _ => by
                rw [hs', g2], fun b f hh => absurd hh (reader_not_decoding hw1 b f)⟩,
              fun h => by rw [hw3]; exact h, by rw [hs']; simp⟩
            · rw [hs']; exact hg.sfin
            · intro rest fin h
              rw [if_neg (reader_open hw1), fut_reader C hw1, hsem rest fin h, g3 rest fin, hw2]
              simp only [hs', List.nil_append]
            · have := reader_not_ended (m := { m with st := m.st.withReader r', src := s' }) hw1
              rw [this] at h; cases h
        | some fr =>
          obtain ⟨g1, g2, g3, g4, g5⟩ := hrecv
          simp only
          have := handleFrame_good (C := C) (R := R) (f0 := f0) E
            (m := { m with st := m.st.withReader r', src := s' }) (log := log) (pend := pend) (f := fr)
            (fin := fin) hw1 g1 (by rw [← hg.sfin]; exact g2) (by rw [← hg.sfin]; exact g3) (by
              intro rest fin h
              rw [hsem rest fin h, g5 rest fin (hfol rest fin h), ← hw2]) hg.out
            (wt_reader hr hg.wait rfl rfl rfl) hwb hg.hnd
          cases hy : Rm.handleFrame C E { m with st := m.st.withReader r', src := s' } fr fin with
          | mk m2 o =>
            rw [hy] at this
            cases o with
            | some e => exact this
            | none =>
              simp only at this ⊢
              obtain ⟨⟨log2, t1⟩, t2, t3, t4⟩ := this
              rw [hw3] at t4
              have hnc : m2.st ≠ .closed := by
                rcases t3 with ⟨r2, h, _⟩ | ⟨b, h⟩ | ⟨l, h, _⟩
                · exact reader_not_closed h
                · rw [h]; simp
                · rw [h]; simp
              have hncp : m2.st ≠ .closePending := by
                rcases t3 with ⟨r2, h, _⟩ | ⟨b, h⟩ | ⟨l, h, _⟩
                · intro hh; rw [hh] at h; cases h
                · rw [h]; simp
                · rw [h]; simp
              rw [if_neg hnc]
              by_cases hfd : (fin && !m2.st.isDecoding) = true
              · rw [if_pos hfd]
                rw [Bool.and_eq_true] at hfd
                obtain ⟨hf1, hf2⟩ := hfd
                rcases t3 with ⟨r2, h, h'⟩ | ⟨b, h⟩ | ⟨l, h, h'⟩
                · rw [hf1] at g3
                  have g3' := g3.symm
                  rw [Bool.and_eq_true, decide_eq_true_iff, List.length_eq_zero_iff] at g3'
                  have hf0 : f0 = true := by rw [← hg.sfin]; exact g3'.1
                  have hs2 : m2.src = ⟨[], true⟩ := by
                    rw [t2]
                    have : s'.fin = true := by rw [g2]; exact g3'.1
                    cases s'
                    simp only at g3' this ⊢
                    rw [g3'.2, this]
                  have := setClosePending_good (C := C) (R := R) (f0 := f0) (m := m2) (log := log2)
                    (pend := pend) post h hf0 hs2 (by
                      intro rest fin hh
                      have hs := t1.sem rest fin hh
                      obtain ⟨rfl, rfl⟩ := hh hf0
                      rw [if_neg (reader_open h), fut_reader C h, hs2] at hs
                      rw [hs]
                      simp only [List.append_nil]
                      rw [from_reset r2 h', read_nil_true]) t1.out t1.wait (fun hh => t1.wb hh hnc) t1.hnd
                  cases hz : m2.setClosePending post with
                  | mk m' o =>
                    rw [hz] at this
                    cases o with
                    | some e => exact this
                    | none =>
                      simp only at this ⊢
                      obtain ⟨u1, u2, u3⟩ := this
                      refine ⟨⟨log2, u1⟩, ⟨fun r hr => (by rw [u2] at hr; cases hr),
                        fun b f hh => (by rw [u2] at hh; cases hh)⟩, fun _ => by rw [u2]; rfl, ?_⟩
                      rw [(u1.end_ (by simp [Rm.ended, u2])).1]; simp
                · rw [h] at hf2; cases hf2
                · rw [h'] at hf1; cases hf1
              · rw [if_neg hfd]
                have hi := ih m2 log2 pend t1 hnc hncp (by
                  rcases hp with h | h
                  · exact Or.inl h
                  · exact Or.inr (t4 h)) (by
                  unfold Rm.passes at hf ⊢
                  have e1 : m2.src.avail.length < m.src.avail.length := by rw [t2]; exact g4
                  split <;> omega)
                cases hz : m2.loop C E post fuel with
                | mk m' o =>
                  rw [hz] at hi
                  cases o with
                  | some e => exact hi
                  | none =>
                    simp only at hi ⊢
                    obtain ⟨i1, i2, i3, i4⟩ := hi
                    refine ⟨i1, i2, fun h => i3 (t4 h), ?_⟩
                    have e1 : m2.src.avail.length < m.src.avail.length := by rw [t2]; exact g4
                    omega
    | none =>
      simp only
      cases hs : m.st with
      | decoding b f =>
        simp only
        obtain rfl : pend = [] := by
          rcases hp with h | h
          · exact h
          · rw [hs] at h; cases h
        have := decodeHeaders_good hl E hs hg
        cases hx : m.decodeHeaders C E b f with
        | mk m' y =>
          obtain ⟨o, go⟩ := y
          rw [hx] at this
          cases o with
          | some e => exact this
          | none =>
            cases go with
            | false =>
              simp only at this ⊢
              exact ⟨this.1, this.2.1, fun h => (by cases h), this.2.2.2⟩
            | true =>
              simp only at this ⊢
              obtain ⟨⟨log', t1⟩, t2, r, t3, t4⟩ := this
              have hi := ih m' log' [] t1 (reader_not_closed t3) (by intro hh; rw [hh] at t3; cases t3)
                (Or.inl rfl) (by
                  unfold Rm.passes at hf ⊢
                  rw [hs] at hf
                  have : m'.st.isDecoding = false := by
                    cases hq : m'.st <;> rw [hq] at t3 <;> first | rfl | cases t3
                  simp only [RmState.isDecoding, if_true] at hf
                  rw [this, t2]
                  simp only [Bool.false_eq_true, if_false]
                  omega)
              cases hz : m'.loop C E post fuel with
              | mk m3 o =>
                rw [hz] at hi
                cases o with
                | some e => exact hi
                | none =>
                  simp only at hi ⊢
                  obtain ⟨i1, i2, i3, i4⟩ := hi
                  exact ⟨i1, i2, fun h => (by cases h), by rw [← t2]; exact i4⟩
      | reading l =>
        simp only
        have hq : Quiet m := ⟨fun r hr' => (by rw [hs] at hr'; cases hr'), fun b f h => (by rw [hs] at h; cases h)⟩
        cases post with
        | false => exact ⟨⟨log, hg⟩, hq, fun _ => by simp only [Bool.false_eq_true, if_false]; rw [hs]; rfl, Nat.le_refl _⟩
        | true =>
          refine ⟨⟨log, ⟨hg.sfin, hg.sem, hg.vst, ?_, hg.end_, hg.wait, hg.wb, hg.hnd⟩⟩, hq,
            fun _ => by simp only [if_true, Rm.emit]; rw [hs]; rfl, Nat.le_refl _⟩
          obtain ⟨o1, o2⟩ := hg.out
          refine ⟨?_, ?_⟩
          · rw [← o1]; simp [Rm.emit, got]
          · rw [← o2]; simp [Rm.emit, promised]
      | connect =>
        simp only
        exact ⟨⟨log, hg⟩, ⟨fun r hr' => (by rw [hs] at hr'; cases hr'), fun b f h => (by rw [hs] at h; cases h)⟩,
          fun h => (by cases h), Nat.le_refl _⟩
      | closed => exact absurd hs hc
      | closePending => exact absurd hs hcp
      | waitHeaders r => rw [hs] at hr; cases hr
      | waitData r => rw [hs] at hr; cases hr
      | waitFin r => rw [hs] at hr; cases hr

end Neqo.H3
