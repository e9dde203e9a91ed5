import Verif.H3.RecvMessageRun

/-! # C71: a request or response is received as it was sent -/
namespace Neqo.H3
open Neqo.Codec
open Spec (Ev MEnd Phase message put mains promises got promised read also cut http3 wholeMessage)

variable {D H : Type}

/-- What was read of a stream before it was known to be a request: at a server the
first frame type is read with the stream's head (C70); at a client, nothing. -/
def Starts (first : Option Nat) (head : Bytes) : Prop :=
  match first with
  | none => head = []
  | some t => hTypeAllowed t = .ok () ∧ ∀ rest, decodeVarint (head ++ rest) = some (t, rest)

theorem from_first (prio : Bytes → Except Err Priority) (first : Nat) (head bs : Bytes) (fin : Bool)
    (hok : hTypeAllowed first = .ok ())
    (hhead : ∀ rest, decodeVarint (head ++ rest) = some (first, rest)) :
    VR (http3 prio) (Reader.newWithType first) ∧
    from' (http3 prio) ⟨Reader.newWithType first, 0⟩ bs fin = read (http3 prio) (head ++ bs) fin := by
  have hnr : ∀ _ : http3 prio first = .reserved, False := by
    intro h
    have := http3_agrees prio first
    rw [h] at this
    have h2 : hTypeAllowed first = .error .httpFrameUnexpected := this
    rw [h2] at hok; cases hok
  have hh : head ≠ [] := by
    intro h
    have := hhead []
    rw [h, List.append_nil, C02_decode_nil] at this
    cases this
  refine ⟨⟨vu_new, hnr⟩, ?_⟩
  rw [read_ne _ _ _ (by simp [hh]), hhead]
  simp only [from', Reader.newWithType, gt_iff_lt, Nat.lt_irrefl, if_false, uintRest, afterType]
  cases hk : http3 prio first <;> first | exact absurd hk (fun x => hnr x) | rfl

theorem init_good {C : Ctx D H} {first : Option Nat} {head : Bytes} (hs : Starts first head) (n : Nat) :
    RGood C (left (fun bs fin => wholeMessage C (head ++ bs) fin) ⟨[], false⟩) false
      (Rm.init first n : Rm D H) [] [] ∧ Quiet (Rm.init first n : Rm D H) := by
  refine ⟨⟨rfl, ?_, ?_, ⟨rfl, rfl⟩, fun h => (by simp [Rm.init, Rm.ended] at h), fun b h => (by cases h),
    fun h => absurd rfl h, fun _ => rfl⟩, fun _ _ => rfl, fun b f h => (by cases h)⟩
  · intro rest fin _
    rw [if_neg (by simp [Rm.init])]
    cases first with
    | none =>
      obtain rfl : head = [] := hs
      simp only [left, Rm.init, List.nil_append, fut, wholeMessage, prep_nil]
      rw [from_reset Reader.new rfl]; rfl
    | some t =>
      simp only [left, Rm.init, List.nil_append, fut, wholeMessage, prep_nil]
      rw [(from_first C.prio t head rest fin hs.1 hs.2).2]; rfl
  · cases first with
    | none => exact vr_getType (C := C) (r := Reader.new) rfl
    | some t => exact (from_first C.prio t head [] false hs.1 hs.2).1

theorem total_append (s : Src) (a b : List (RmOp D)) : total s (a ++ b) = total (total s a) b := by
  induction a generalizing s with
  | nil => rfl
  | cons op a ih => cases op <;> simp only [List.cons_append, total] <;> exact ih _

/-- What arrives later only adds to what has arrived. -/
theorem total_fol (s : Src) (ops : List (RmOp D)) :
    ∃ rest, (total s ops).avail = s.avail ++ rest ∧ Fol s.fin rest (total s ops).fin := by
  induction ops generalizing s with
  | nil => exact ⟨[], by simp [total], fun h => ⟨rfl, h⟩⟩
  | cons op ops ih =>
    cases op with
    | arrive bs fin E =>
      obtain ⟨rest, h1, h2⟩ := ih (s.add bs fin)
      cases hf : s.fin with
      | true =>
        have e : s.add bs fin = s := by simp [Src.add, hf]
        rw [e] at h1 h2
        rw [hf] at h2
        exact ⟨rest, by simp only [total, e]; exact h1, by simp only [total, e]; exact h2⟩
      | false =>
        have e : s.add bs fin = ⟨s.avail ++ bs, fin⟩ := by simp [Src.add, hf]
        rw [e] at h1 h2
        refine ⟨bs ++ rest, ?_, fun h => by cases h⟩
        simp only [total, e]
        rw [h1, List.append_assoc]
    | insert n E => exact ih s
    | read r E => exact ih s

theorem run_inv {C : Ctx D H} (hl : C.Laws) {W : Bytes → Bool → List (Ev D H) × MEnd} :
    ∀ (ops : List (RmOp D)) (s : Src) (m : Rm D H) (log : List (Ev D H)),
    RGood C (left W s) s.fin m log [] → Quiet m →
    match m.run C ops with
    | (_, some .panic) => ∃ pre op post m0, ops = pre ++ op :: post ∧ m.run C pre = (m0, none) ∧ Panics m0 op
    | (m', some e) => ∃ s', (∃ pre post, ops = pre ++ post ∧ s' = total s pre) ∧ Bad C (left W s') s'.fin m' e
    | (m', none) => (∃ log', RGood C (left W (total s ops)) (total s ops).fin m' log' []) ∧ Quiet m' := by
  intro ops
  induction ops with
  | nil => intro s m log hg hq; exact ⟨⟨log, hg⟩, hq⟩
  | cons op ops ih =>
    intro s m log hg hq
    have hstep := step_good hl hg hq op
    unfold Rm.run
    cases hx : m.step C op with
    | mk m1 o =>
      rw [hx] at hstep
      cases o with
      | some e =>
        cases e with
        | panic => exact ⟨[], op, ops, m, rfl, rfl, hstep⟩
        | main e => exact ⟨total s [op], ⟨[op], ops, rfl, rfl⟩, hstep⟩
        | other e => exact ⟨total s [op], ⟨[op], ops, rfl, rfl⟩, hstep⟩
      | none =>
        simp only at hstep ⊢
        obtain ⟨⟨log1, h1⟩, h2⟩ := hstep
        have ht : ∀ l, total s (op :: l) = total (total s [op]) l := fun l => total_append s [op] l
        have hi := ih (total s [op]) m1 log1 h1 h2
        cases hy : m1.run C ops with
        | mk m' o =>
          rw [hy] at hi
          cases o with
          | none =>
            simp only at hi ⊢
            rw [ht]
            exact hi
          | some e =>
            have hbad : ∀ e, (∃ s', (∃ pre post, ops = pre ++ post ∧ s' = total (total s [op]) pre) ∧
                Bad C (left W s') s'.fin m' e) →
                ∃ s', (∃ pre post, op :: ops = pre ++ post ∧ s' = total s pre) ∧ Bad C (left W s') s'.fin m' e := by
              rintro e ⟨s', ⟨pre, post, e1, e2⟩, hb⟩
              exact ⟨s', ⟨op :: pre, post, (by rw [e1]; rfl), (by rw [e2]; exact (ht pre).symm)⟩, hb⟩
            cases e with
            | panic =>
              obtain ⟨pre, op', post, m0, e1, e2, e3⟩ := hi
              refine ⟨op :: pre, op', post, m0, (by rw [e1]; rfl), ?_, e3⟩
              simp only [Rm.run, hx]
              exact e2
            | main e => exact hbad _ hi
            | other e => exact hbad _ hi

/-- What has been read agrees with the message in the whole stream. -/
theorem run_log {C : Ctx D H} (hl : C.Laws) {first : Option Nat} {head : Bytes} (hs : Starts first head)
    (n : Nat) (ops : List (RmOp D)) {m : Rm D H} {r : Option RErr}
    (h : (Rm.init first n : Rm D H).run C ops = (m, r)) (hr : r ≠ some .panic) :
    let s := total ⟨[], false⟩ ops
    let W := wholeMessage C (head ++ s.avail) s.fin
    ∃ log lost pend, W.1 = log ++ lost ∧ OutRel C m.out m.blocked log pend ∧
      (∀ e, r = some (.main e) → W.2 = .failed e) ∧
      (r = none → pend = [] ∧ Quiet m ∧
        RGood C (left (fun bs fin => wholeMessage C (head ++ bs) fin) s) s.fin m log []) := by
  intro s W
  have hinv := run_inv hl (W := fun bs fin => wholeMessage C (head ++ bs) fin) ops ⟨[], false⟩ _ []
    (init_good (C := C) hs n).1 (init_good (C := C) hs n).2
  rw [h] at hinv
  cases r with
  | none =>
    obtain ⟨⟨log, hg⟩, hq⟩ := hinv
    obtain ⟨l, hl⟩ := sem_log hg.sem [] s.fin (fun h => ⟨rfl, h⟩)
    simp only [left, List.append_nil] at hl
    exact ⟨log, l, [], hl, hg.out, fun e h => (by cases h), fun _ => ⟨rfl, hq, hg⟩⟩
  | some e =>
    cases e with
    | panic => exact absurd rfl hr
    | main e =>
      obtain ⟨s', ⟨pre, post, e1, e2⟩, log, lost, pend, ho, hb⟩ := hinv
      obtain ⟨rest, h1, h2⟩ := total_fol s' post
      have hs' : total s' post = s := by rw [e2, ← total_append, ← e1]
      rw [hs'] at h1 h2
      have hb' := hb rest s.fin h2
      simp only [left] at hb'
      rw [← h1] at hb'
      exact ⟨log, lost, pend, (by show (wholeMessage C (head ++ s.avail) s.fin).1 = _; rw [hb']), ho,
        fun e' he => (by cases he; show (wholeMessage C (head ++ s.avail) s.fin).2 = _; rw [hb']),
        fun h => by cases h⟩
    | other e =>
      obtain ⟨s', ⟨pre, post, e1, e2⟩, log, pend, ho, hb⟩ := hinv
      obtain ⟨rest, h1, h2⟩ := total_fol s' post
      have hs' : total s' post = s := by rw [e2, ← total_append, ← e1]
      rw [hs'] at h1 h2
      obtain ⟨l, hb'⟩ := hb rest s.fin h2
      simp only [left] at hb'
      rw [← h1] at hb'
      exact ⟨log, l, pend, hb', ho, fun e' he => (by cases he), fun h => by cases h⟩

/-- C71: whatever the division of the stream, the waits for the QPACK table and the
reads of the application, what it gets is a beginning of the message in the stream:
its header sections and the bytes of its body, in order, nothing changed, repeated or
left out. -/
theorem C71_prefix {C : Ctx D H} (hl : C.Laws) {first : Option Nat} {head : Bytes}
    (hs : Starts first head) (n : Nat) (ops : List (RmOp D)) {m : Rm D H} {r : Option RErr}
    (h : (Rm.init first n : Rm D H).run C ops = (m, r)) (hr : r ≠ some .panic) :
    got m.out <+: mains (wholeMessage C (head ++ (total ⟨[], false⟩ ops).avail) (total ⟨[], false⟩ ops).fin).1 := by
  obtain ⟨log, lost, pend, h1, h2, _⟩ := run_log hl hs n ops h hr
  rw [h1, mains_append, ← h2.1, List.append_assoc]
  exact List.prefix_append _ _

/-- C71: promises are passed on with the fields that were sent, in order. -/
theorem C71_promises {C : Ctx D H} (hl : C.Laws) {first : Option Nat} {head : Bytes}
    (hs : Starts first head) (n : Nat) (ops : List (RmOp D)) {m : Rm D H} {r : Option RErr}
    (h : (Rm.init first n : Rm D H).run C ops = (m, r)) (hr : r ≠ some .panic) :
    promised m.out <+: promises C
      (wholeMessage C (head ++ (total ⟨[], false⟩ ops).avail) (total ⟨[], false⟩ ops).fin).1 := by
  obtain ⟨log, lost, pend, h1, h2, _⟩ := run_log hl hs n ops h hr
  rw [h1, promises_append, ← h2.2, List.append_assoc]
  exact List.prefix_append _ _

/-- C71: when the stream is refused because of its contents, it does not hold a
message, and the error is the one for what is wrong with it. -/
theorem C71_error {C : Ctx D H} (hl : C.Laws) {first : Option Nat} {head : Bytes}
    (hs : Starts first head) (n : Nat) (ops : List (RmOp D)) {m : Rm D H} {e : Err}
    (h : (Rm.init first n : Rm D H).run C ops = (m, some (.main e))) :
    (wholeMessage C (head ++ (total ⟨[], false⟩ ops).avail) (total ⟨[], false⟩ ops).fin).2 = .failed e := by
  obtain ⟨log, lost, pend, _, _, h3, _⟩ := run_log hl hs n ops h (by simp)
  exact h3 e rfl

theorem message_fin (C : Ctx D H) : ∀ (is : List (Item HFrame)) (p : Phase) (e : End),
    Ev.fin ∈ (message C p is e).1 →
    (message C p is e).2 = .done ∧ ∃ l, (message C p is e).1 = l ++ [.fin] ∧ Ev.fin ∉ l := by
  intro is
  have hput : ∀ (x : Ev D H) (y : List (Ev D H) × MEnd), x ≠ .fin →
      (Ev.fin ∈ y.1 → y.2 = .done ∧ ∃ l, y.1 = l ++ [.fin] ∧ Ev.fin ∉ l) →
      Ev.fin ∈ (put x y).1 → (put x y).2 = .done ∧ ∃ l, (put x y).1 = l ++ [.fin] ∧ Ev.fin ∉ l := by
    intro x y hx ih h
    simp only [put, List.mem_cons] at h
    rcases h with h | h
    · exact absurd h.symm hx
    · obtain ⟨h1, l, h2, h3⟩ := ih h
      refine ⟨h1, x :: l, by simp [put, h2], ?_⟩
      simp only [List.mem_cons, not_or]
      exact ⟨fun h => hx h.symm, h3⟩
  induction is with
  | nil =>
    intro p e h
    cases p <;> cases e <;> simp only [message, List.not_mem_nil] at h ⊢ <;>
      exact ⟨trivial, [], rfl, by simp⟩
  | cons i is ih =>
    intro p e
    cases i with
    | byte b =>
      cases p <;> simp only [message, List.not_mem_nil, false_implies]
      exact hput _ _ (by simp) (ih .body e)
    | frame f =>
      cases f <;> cases p <;> simp only [message, List.not_mem_nil, false_implies] <;>
        first
        | exact ih _ e
        | (split
           · exact hput _ _ (by simp) (ih _ e)
           · intro h; cases h)
        | (split
           · intro h; cases h
           · split
             · intro h; cases h
             · exact hput _ _ (by simp) (ih _ e)
             · exact hput _ _ (by simp) (ih _ e)
             · intro h; simp at h)

/-- C71: when the application is told of the end, it has got the whole message. -/
theorem C71_whole {C : Ctx D H} (hl : C.Laws) {first : Option Nat} {head : Bytes}
    (hs : Starts first head) (n : Nat) (ops : List (RmOp D)) {m : Rm D H} {r : Option RErr}
    (h : (Rm.init first n : Rm D H).run C ops = (m, r)) (hr : r ≠ some .panic) (hf : Ev.fin ∈ got m.out) :
    let W := wholeMessage C (head ++ (total ⟨[], false⟩ ops).avail) (total ⟨[], false⟩ ops).fin
    got m.out = mains W.1 ∧ W.2 = .done := by
  intro W
  obtain ⟨c, hp⟩ := C71_prefix hl hs n ops h hr
  have hmem : Ev.fin ∈ W.1 := by
    have : Ev.fin ∈ mains W.1 := by
      show Ev.fin ∈ mains (wholeMessage C _ _).1
      rw [← hp]; exact List.mem_append_left _ hf
    exact (List.mem_filter.mp this).1
  obtain ⟨h1, l, h2, h3⟩ := message_fin C _ _ _ hmem
  refine ⟨?_, h1⟩
  have h4 : mains W.1 = mains l ++ [.fin] := by
    show mains (message C _ _ _).1 = _
    rw [h2, mains_fin]
  have h5 : Ev.fin ∉ mains l := fun hh => h3 (List.mem_filter.mp hh).1
  have hp' : got m.out ++ c = mains l ++ [.fin] := by rw [← h4]; exact hp
  rw [h4]
  rcases List.eq_nil_or_concat c with rfl | ⟨c', x, rfl⟩
  · rw [List.append_nil] at hp'; exact hp'
  · exfalso
    rw [List.concat_eq_append, ← List.append_assoc] at hp'
    have := (List.append_inj' hp' rfl).1
    apply h5
    rw [← this]
    exact List.mem_append_left _ hf

/-- C71: nothing is kept back.  When the QPACK decoder does not hold the stream up,
the application either has everything that has arrived of the message, or its next
read (into a buffer of any size but zero) gets more of it or tells it that the stream
is refused. -/
theorem C71_progress {C : Ctx D H} (hl : C.Laws) {first : Option Nat} {head : Bytes}
    (hs : Starts first head) (n : Nat) (ops : List (RmOp D)) {m : Rm D H}
    (h : (Rm.init first n : Rm D H).run C ops = (m, none)) (hw : m.waiting = none)
    (room : Nat) (hroom : 0 < room) (E : Env D) :
    got m.out = mains (wholeMessage C (head ++ (total ⟨[], false⟩ ops).avail) (total ⟨[], false⟩ ops).fin).1 ∨
    match m.step C (.read room E) with
    | (_, some e) => e ≠ .panic
    | (m', none) => (got m.out).length < (got m'.out).length := by
  obtain ⟨log, lost, pend, _, ho, _, hrest⟩ := run_log hl hs n ops h (by simp)
  obtain ⟨rfl, hq, hg⟩ := hrest rfl
  generalize hT : total (⟨[], false⟩ : Src) ops = T at *
  have hgl : got m.out = mains log := by rw [← ho.1]; simp
  have hsem := hg.sem [] T.fin (fun h => ⟨rfl, h⟩)
  simp only [left, List.append_nil] at hsem
  have hdone : (wholeMessage C (head ++ T.avail) T.fin).1 = log →
      got m.out = mains (wholeMessage C (head ++ T.avail) T.fin).1 := fun h => by rw [h, hgl]
  have hsafe : ∀ m' e, m.step C (.read room E) = (m', some e) → e ≠ .panic := by
    intro m' e he hp
    have := step_good hl hg hq (.read room E)
    rw [he, hp] at this
    obtain ⟨_, _, _, _, h⟩ := this
    cases h
  have hstep : m.st ≠ .closed → m.step C (.read room E) = m.readLoop C E (m.src.avail.length + 2) room [] := by
    intro hc
    simp only [Rm.step, if_neg hc]
  cases hr : m.st.reader with
  | some r =>
    left
    apply hdone
    rw [if_neg (reader_open hr), fut_reader C hr] at hsem
    have hsrc := hq.1 r hr
    have hTf : T.fin = false := by rw [← hg.sfin, hsrc]
    rw [hsrc, hTf] at hsem
    have hv : VP C.kind ⟨r, 0⟩ := fun _ => (vst_reader hr).mp hg.vst
    rw [from_nil_false ⟨r, 0⟩ hv] at hsem
    rw [hTf, hsem]
    cases m.st.phase <;> simp [prep, msg, message]
  | none =>
    cases hst : m.st with
    | closed =>
      left
      apply hdone
      rw [hst, if_pos (Or.inl rfl)] at hsem
      obtain ⟨e, _, h⟩ := hsem
      rw [h]
    | connect =>
      left
      apply hdone
      rw [hst, if_pos (Or.inr rfl)] at hsem
      obtain ⟨e, _, h⟩ := hsem
      rw [h]
    | decoding b f =>
      have := hq.2 b f hst
      rw [hw] at this; cases this
    | closePending =>
      right
      cases hx : m.step C (.read room E) with
      | mk m' o =>
        cases o with
        | some e => exact hsafe m' e hx
        | none =>
          rw [hstep (by rw [hst]; simp)] at hx
          simp only [Rm.readLoop, hst] at hx
          cases hx
          simp only [Rm.setClosed, Rm.emit]
          rw [got_data_fin]; simp
    | reading l =>
      have hl' : 0 < l := by have := hg.vst; rw [hst] at this; exact this
      by_cases ha : m.src.avail = []
      · cases hTf : T.fin with
        | false =>
          left
          rw [hTf] at hdone
          apply hdone
          rw [hst, if_neg (by simp), ha, hTf] at hsem
          rw [hsem]
          simp only [fut]
          rw [from_left Reader.new rfl]
          simp [hl', also, cut, msg, message, prep]
        | true =>
          right
          cases hx : m.step C (.read room E) with
          | mk m' o =>
            cases o with
            | some e => exact hsafe m' e hx
            | none =>
              exfalso
              rw [hstep (by rw [hst]; simp), readLoop_reading C E _ room [] m l hst] at hx
              simp [ha, hg.sfin, hTf, hl'] at hx
      · right
        cases hx : m.step C (.read room E) with
        | mk m' o =>
          cases o with
          | some e => exact hsafe m' e hx
          | none =>
            rw [hstep (by rw [hst]; simp)] at hx
            exact readLoop_some E _ room l m m' hst hl' hroom ha hx
    | waitHeaders r => rw [hst] at hr; cases hr
    | waitData r => rw [hst] at hr; cases hr
    | waitFin r => rw [hst] at hr; cases hr

/-- C71: the only way to make it panic: insertions into the QPACK table release a
promise after the end of the stream has been read and before the application has read
it. -/
theorem C71_panic_only {C : Ctx D H} (hl : C.Laws) {first : Option Nat} {head : Bytes}
    (hs : Starts first head) (n : Nat) (ops : List (RmOp D)) {m : Rm D H}
    (h : (Rm.init first n : Rm D H).run C ops = (m, some .panic)) :
    ∃ pre op post m0, ops = pre ++ op :: post ∧ (Rm.init first n : Rm D H).run C pre = (m0, none) ∧
      Panics m0 op := by
  have hinv := run_inv hl (W := fun bs fin => wholeMessage C (head ++ bs) fin) ops ⟨[], false⟩ _ []
    (init_good (C := C) hs n).1 (init_good (C := C) hs n).2
  rw [h] at hinv
  exact hinv

/-- C71, the part that holds: where promises are not handled (a server, and a push
stream at a client), no input makes it panic.  Missing: a client's request stream,
where one can (`C71_blocked_promise_panics`). -/
theorem C71_no_panic_partial {C : Ctx D H} (hl : C.Laws) {first : Option Nat} {head : Bytes}
    (hs : Starts first head) (n : Nat) (hh : C.handler = false) (ops : List (RmOp D)) {m : Rm D H}
    {r : Option RErr} (h : (Rm.init first n : Rm D H).run C ops = (m, r)) : r ≠ some .panic := by
  intro hr
  rw [hr] at h
  obtain ⟨pre, op, post, m0, _, h1, h2, h3, _⟩ := C71_panic_only hl hs n ops h
  obtain ⟨_, _, _, _, _, _, h4⟩ := run_log hl hs n pre h1 (by simp)
  exact h3 ((h4 rfl).2.2.hnd hh)

/-! ## Examples -/

/-- A decoder in which blocks that begin with 0xff need an insertion, and the block
`[1]` is an interim response. -/
def exCtx (handler : Bool) : Ctx Bytes Bytes where
  prio := fun _ => .error .httpFrame
  dec := fun b => .ok b
  refers := fun b => .ok (b.head? == some 0xff)
  ready := fun n b => b.head? != some 0xff || decide (1 ≤ n)
  check := fun d => .ok (if d = [1] then .interim else .final, d)
  handler := handler

theorem exCtx_laws (h : Bool) : (exCtx h).Laws :=
  ⟨fun b e h => by simp [exCtx] at h, fun b n h => by simp [exCtx] at h ⊢; exact Or.inl h⟩

def exEnv : Env Bytes := ⟨true, fun _ _ => .ok ()⟩

/-- An interim response, a promise and a response that wait for an insertion, a body
in two frames, in pieces, read in pieces. -/
def exOps : List (RmOp Bytes) :=
  [.arrive [0x01, 0x01, 0x01, 0x05] false exEnv, .arrive [0x03, 0x00, 0xff, 0x07] false exEnv,
   .arrive [0x01, 0x02, 0xff, 0x02, 0x00, 0x02, 0x0a] false exEnv, .read 5 exEnv, .insert 1 exEnv,
   .read 5 exEnv, .arrive [0x0b, 0x00, 0x01, 0x0c] true exEnv, .read 1 exEnv, .read 5 exEnv]

example : got ((Rm.init none 0 : Rm Bytes Bytes).run (exCtx true) exOps).1.out =
      [.headers [1], .headers [0xff, 2], .byte 10, .byte 11, .byte 12, .fin] ∧
    promised ((Rm.init none 0 : Rm Bytes Bytes).run (exCtx true) exOps).1.out = [(0, .ok [0xff, 7])] ∧
    ((Rm.init none 0 : Rm Bytes Bytes).run (exCtx true) exOps).2 = none := by decide +kernel

example : wholeMessage (exCtx true) (total ⟨[], false⟩ exOps).avail (total ⟨[], false⟩ exOps).fin =
    ([.headers [1], .promise 0 [0xff, 7], .headers [0xff, 2], .byte 10, .byte 11, .byte 12, .fin], .done) := by
  decide +kernel

/-- A body in a response that has not begun is refused. -/
example : ((Rm.init none 0 : Rm Bytes Bytes).run (exCtx false)
    [.arrive [0x00, 0x01, 0x07] false exEnv]).2 = some (.main .httpFrameUnexpected) := by decide +kernel

example : Starts (some 1) [0x01] :=
  ⟨by decide, fun rest => by
    have : beVal [1] = 1 := by decide
    simp [decodeVarint, decodeN, this]⟩

/-- C71, what does not hold: a peer can make a client panic.  A promise waits for an
insertion into the QPACK table, the stream ends, and then the insertion arrives
before the application has read the end (recv_message.rs:351-353, reached from
`header_unblocked`, recv_message.rs:485). -/
theorem C71_blocked_promise_panics :
    ((Rm.init none 0 : Rm Bytes Bytes).run (exCtx true)
      [.arrive [0x01, 0x01, 0x02, 0x05, 0x02, 0x00, 0xff] true exEnv, .insert 1 exEnv]).2 = some .panic := by
  decide +kernel

/-- C71, what does not hold: every promise in the stream is passed on.  One that waits
for an insertion is forgotten when the application reads the end
(recv_message.rs:367-376). -/
theorem C71_blocked_promise_lost :
    let ops : List (RmOp Bytes) := [.arrive [0x01, 0x01, 0x02, 0x05, 0x02, 0x00, 0xff] true exEnv,
      .read 5 exEnv, .insert 1 exEnv]
    let x := (Rm.init none 0 : Rm Bytes Bytes).run (exCtx true) ops
    x.2 = none ∧ got x.1.out = [.headers [2], .fin] ∧ promised x.1.out = [] ∧
      promises (exCtx true) (wholeMessage (exCtx true) (total ⟨[], false⟩ ops).avail true).1 =
        [(0, .ok [0xff])] := by
  decide +kernel

end Neqo.H3
