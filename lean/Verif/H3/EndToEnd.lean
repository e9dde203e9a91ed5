import Verif.H3.MessageProps
import Verif.H3.RecvMessageProps
import Verif.E2E.Props

/-!
# C105: a message goes from one application to the other

Sending (`Verif/H3/Message.lean`), the streams of the transport (`Verif/E2E`) and
receiving (`Verif/H3/RecvMessage.lean`), put together.  What is taken from the
sending application: a field section that opens the message, or an interim response,
is one that the receiver's QPACK decoder and checks take for what the sender took it for
(`Understood`).
-/
namespace Neqo.H3.Spec
open Neqo.Codec (Bytes)
open Neqo.H3

variable {D H : Type}

/-- What the receiving application is to see of what the sender accepted: the fields
of interim responses and of the message, the body, and the end.  Trailers are not
passed on.  `started` says whether the section that opens the message has been. -/
def conveyed (C : Ctx D H) : Bool → List Accepted → List (Ev D H)
  | _, [] => []
  | false, .headers b :: l =>
    match fields C b with
    | .ok (.interim, h) => .headers h :: conveyed C false l
    | .ok (_, h) => .headers h :: conveyed C true l
    | .error _ => []
  | true, .headers _ :: l => conveyed C true l
  | s, .body bs :: l => bs.map .byte ++ conveyed C s l
  | s, .fin :: l => .fin :: conveyed C s l

/-- The sections up to the one that opens the message are not empty, and the receiver
takes them for what the sender takes them for: an interim response, or the fields of the
message. -/
def Understood (C : Ctx D H) (response : Bool) (ops : List MsgOp) : Prop :=
  ∀ before block interim ok after, ops = before ++ .headers block interim ok :: after →
    (∀ b i k, MsgOp.headers b i k ∈ before → response = true ∧ i = true) →
    block ≠ [] ∧ ∃ h, fields C block = .ok (if response && interim then .interim else .final, h)

end Neqo.H3.Spec

namespace Neqo.H3
open Neqo.Codec
open Spec (Ev MEnd Phase message put mains promises got promised read also cut http3 wholeMessage conveyed
  Understood fields)

variable {D H : Type}

def PhaseOf : MsgState → Phase → Prop
  | .waitingForHeaders, p => p = .head
  | .waitingForData, p => p = .body
  | .trailersSet, p => p = .tail
  | .done, p => p ≠ .head

/-- What has been written so far, and what is to be seen of it. -/
def Carries (C : Ctx D H) (m : SendMsg) (acc : List Accepted) : Prop :=
  ∃ evs p, PhaseOf m.state p ∧
    (∀ rest fin, msg C .head (read C.kind (m.out ++ m.buf ++ rest) fin) = prep evs (msg C p (read C.kind rest fin))) ∧
    ∀ l, conveyed C false (acc ++ l) =
      evs ++ (if m.state = .done then [.fin] else []) ++ conveyed C (decide (m.state ≠ .waitingForHeaders)) l

theorem carries_congr {C : Ctx D H} {m m' : SendMsg} {acc : List Accepted} (h : Carries C m acc)
    (hs : m'.state = m.state) (ho : m'.out ++ m'.buf = m.out ++ m.buf) : Carries C m' acc := by
  unfold Carries
  rw [hs, ho]
  exact h

theorem msg_also (C : Ctx D H) (p : Phase) (items : List (Item HFrame)) (x : List (Item HFrame) × End) :
    msg C p (also items x) = message C p (items ++ x.1) x.2 := rfl

/-- A section that opens the message, or an interim response. -/
theorem carries_head {C : Ctx D H} {m m' : SendMsg} {acc : List Accepted} (h : Carries C m acc) {block e : Bytes}
    (hst : m.state = .waitingForHeaders) (hl : block.length ≤ 384 * 1024)
    (he : Sent.encode (fun _ => []) (.frame (.headers block)) = some e) {interim : Bool} {x : H} (hb : block ≠ [])
    (hf : fields C block = .ok (if interim then .interim else .final, x))
    (hs' : m'.state = if interim then .waitingForHeaders else .waitingForData)
    (ho : m'.out ++ m'.buf = m.out ++ m.buf ++ e) : Carries C m' (acc ++ [.headers block]) := by
  obtain ⟨evs, p, h1, h2, h3⟩ := h
  rw [hst] at h1 h3
  obtain rfl : p = .head := h1
  obtain ⟨e', items, q1, q2, q3⟩ := headers_arrive C.prio (fun _ => []) block hl
  rw [he] at q1; cases q1
  cases (show items = _ from q2)
  refine ⟨evs ++ [.headers x], if interim then .head else .body, ?_, ?_, ?_⟩
  · rw [hs']; cases interim <;> exact rfl
  · intro rest fin
    rw [ho, List.append_assoc (m.out ++ m.buf), h2, q3, msg_also, ← prep_prep]
    congr 1
    show message C .head (.frame (.headers block) :: _) _ = _
    simp only [message, if_neg hb, hf]
    cases interim <;> rfl
  · intro l
    rw [List.append_assoc, h3]
    rw [hs']
    cases interim <;> simp [conveyed, hf]

/-- Trailers. -/
theorem carries_tail {C : Ctx D H} {m m' : SendMsg} {acc : List Accepted} (h : Carries C m acc) {block e : Bytes}
    (hst : m.state = .waitingForData) (hl : block.length ≤ 384 * 1024)
    (he : Sent.encode (fun _ => []) (.frame (.headers block)) = some e)
    (hs' : m'.state = .trailersSet) (ho : m'.out ++ m'.buf = m.out ++ m.buf ++ e) :
    Carries C m' (acc ++ [.headers block]) := by
  obtain ⟨evs, p, h1, h2, h3⟩ := h
  rw [hst] at h1 h3
  obtain rfl : p = .body := h1
  obtain ⟨e', items, q1, q2, q3⟩ := headers_arrive C.prio (fun _ => []) block hl
  rw [he] at q1; cases q1
  cases (show items = _ from q2)
  refine ⟨evs, .tail, ?_, ?_, ?_⟩
  · rw [hs']; exact rfl
  · intro rest fin
    rw [ho, List.append_assoc (m.out ++ m.buf), h2, q3, msg_also]
    rfl
  · intro l
    rw [List.append_assoc, h3, hs']
    simp [conveyed]

/-- A DATA frame. -/
theorem carries_data {C : Ctx D H} {m m' : SendMsg} {acc : List Accepted} (h : Carries C m acc) {p a b : Bytes}
    (hst : m.state = .waitingForData) (hl : p.length < 2 ^ 62)
    (ha : encodeVarint 0 = some a) (hb : encodeVarint p.length = some b)
    (hs' : m'.state = .waitingForData) (ho : m'.out ++ m'.buf = m.out ++ m.buf ++ (a ++ b ++ p)) :
    Carries C m' (acc ++ [.body p]) := by
  obtain ⟨evs, q, h1, h2, h3⟩ := h
  rw [hst] at h1 h3
  obtain rfl : q = .body := h1
  obtain ⟨e', items, q1, q2, q3⟩ := data_arrives C.prio (fun _ => []) p hl
  have he : e' = a ++ b ++ p := by
    simp [Sent.encode, ha, hb] at q1
    rw [← q1]; simp
  subst he
  cases (show items = _ from q2)
  refine ⟨evs ++ p.map .byte, .body, ?_, ?_, ?_⟩
  · rw [hs']; exact rfl
  · intro rest fin
    rw [ho, List.append_assoc (m.out ++ m.buf), h2, q3, msg_also, ← prep_prep]
    congr 1
    show message C .body (.frame (.data _) :: (p.map .byte ++ _)) _ = _
    simp only [message]
    rw [message_bytes]
    rfl
  · intro l
    rw [List.append_assoc, h3, hs']
    simp [conveyed]

theorem carries_none {C : Ctx D H} {m : SendMsg} {acc : List Accepted} (h : Carries C m acc)
    (hst : m.state = .waitingForData) : Carries C m (acc ++ [.body []]) := by
  obtain ⟨evs, q, h1, h2, h3⟩ := h
  refine ⟨evs, q, h1, h2, fun l => ?_⟩
  rw [List.append_assoc, h3, hst]
  simp [conveyed]

theorem carries_unbody {C : Ctx D H} {m : SendMsg} {acc : List Accepted} (h : Carries C m (acc ++ [.body []])) :
    Carries C m acc := by
  obtain ⟨evs, q, h1, h2, h3⟩ := h
  refine ⟨evs, q, h1, h2, fun l => ?_⟩
  rw [← h3]
  have : ∀ (a : List Accepted) (s : Bool), conveyed C s (a ++ l) = conveyed C s (a ++ [.body []] ++ l) := by
    intro a
    induction a with
    | nil => intro s; simp [conveyed]
    | cons x a ih =>
      intro s
      cases x with
      | headers b => cases s <;> simp only [List.cons_append, conveyed, ih]
      | body bs => simp only [List.cons_append, conveyed, ih]
      | fin => simp only [List.cons_append, conveyed, ih]
  exact this acc false

/-- The end. -/
theorem carries_fin {C : Ctx D H} {m m' : SendMsg} {acc : List Accepted} (h : Carries C m acc)
    (hst : m.state = .waitingForData ∨ m.state = .trailersSet) (hs' : m'.state = .done)
    (ho : m'.out ++ m'.buf = m.out ++ m.buf) : Carries C m' (acc ++ [.fin]) := by
  obtain ⟨evs, q, h1, h2, h3⟩ := h
  refine ⟨evs, q, ?_, ?_, ?_⟩
  · rw [hs']
    rcases hst with hst | hst <;> rw [hst] at h1 <;> rw [show q = _ from h1] <;> exact (fun h => by cases h)
  · rw [ho]; exact h2
  · intro l
    rw [List.append_assoc, h3, hs']
    rcases hst with hst | hst <;> rw [hst] <;> simp [conveyed]

theorem carries_step {C : Ctx D H} {m : SendMsg} {acc : List Accepted} (h : Carries C m acc) (op : MsgOp) (hop : op.Ok)
    (hund : ∀ block interim ok, op = .headers block interim ok → m.state = .waitingForHeaders →
      block ≠ [] ∧ ∃ x, fields C block = .ok (if m.response && interim then .interim else .final, x)) :
    Carries C (m.step op).2.2 (acc ++ (m.step op).1) := by
  cases op with
  | headers block interim ok =>
    have hl : block.length ≤ 384 * 1024 := hop
    obtain ⟨e, he⟩ := headers_encode block (by omega)
    simp only [SendMsg.step, SendMsg.sendHeaders]
    cases hn : m.state.newHeaders m.response interim ok with
    | error er => simpa using h
    | ok s =>
      simp only [he]
      cases hst : m.state with
      | waitingForHeaders =>
        obtain ⟨hb, x, hf⟩ := hund block interim ok rfl hst
        refine carries_head h hst hl he (interim := m.response && interim) hb hf ?_ (by simp)
        rw [hst] at hn
        simp only [MsgState.newHeaders] at hn
        cases hr : m.response <;> cases interim <;> simp [hr] at hn ⊢ <;> exact hn.symm
      | waitingForData =>
        refine carries_tail h hst hl he ?_ (by simp)
        rw [hst] at hn
        cases ok with
        | false => cases hn
        | true => cases hn; rfl
      | trailersSet => rw [hst] at hn; cases hn
      | done => rw [hst] at hn; cases hn
  | data body avail =>
    have hav : avail < 2 ^ 62 := hop
    simp only [SendMsg.step, SendMsg.sendData]
    by_cases hst : m.state = .waitingForData
    · rw [if_neg (by simpa using hst)]
      have hf : Carries C (m.flush avail) acc := carries_congr h rfl (flush_eq m avail)
      have hfst : (m.flush avail).state = .waitingForData := hst
      by_cases hb : (m.flush avail).buf = []
      · rw [if_neg (by simpa using hb)]
        by_cases h3 : avail - min m.buf.length avail < 3
        · rw [if_pos h3]
          simpa using carries_none hf hfst
        · rw [if_neg h3]
          generalize hA : avail - min m.buf.length avail = A at *
          obtain ⟨a, b, ha, hbv, hfit⟩ := dataLen_fits body.length A (by omega) (by omega)
          obtain ⟨d1, d2, d3, _⟩ := dataLen_bounds body.length A (by omega)
          simp only [ha, hbv, bind, Option.bind, pure]
          rw [if_neg (by simp only [List.length_append] at hfit ⊢; omega)]
          have hmk : ∀ (p : Bytes), p = body.take (dataLen body.length A) →
              Carries C { (m.flush avail) with out := (m.flush avail).out ++ (a ++ b) ++ p } (acc ++ [.body p]) := by
            intro p hp
            have hpl : p.length = dataLen body.length A := by
              rw [hp, List.length_take]; omega
            refine carries_data hf hfst (by omega) ha (by rw [hpl]; exact hbv) hfst ?_
            show (m.flush avail).out ++ (a ++ b) ++ p ++ (m.flush avail).buf = _
            rw [hb]
            simp
          by_cases hp : body.take (dataLen body.length A) = []
          · rw [if_pos hp]
            have hi := hmk _ rfl
            rw [hp] at hi
            rw [List.append_nil]
            exact carries_congr (carries_unbody hi) rfl (by simp)
          · rw [if_neg hp]
            rw [if_neg (by simp only [List.length_append, List.length_take] at hfit ⊢; omega)]
            exact hmk _ rfl
      · rw [if_pos (by simpa using hb)]
        simpa using carries_none hf hfst
    · rw [if_pos (by simpa using hst)]
      simpa using h
  | send avail =>
    simp only [SendMsg.step, List.append_nil, SendMsg.send]
    split
    · exact carries_congr h rfl (flush_eq m avail)
    · exact carries_congr h rfl (flush_eq m avail)
  | close =>
    simp only [SendMsg.step, SendMsg.close]
    cases hfin : m.state.fin with
    | error er => simpa using h
    | ok s =>
      have hs : s = .done := by
        unfold MsgState.fin at hfin
        split at hfin <;> cases hfin <;> rfl
      subst hs
      have hst : m.state = .waitingForData ∨ m.state = .trailersSet := by
        cases hst : m.state <;> rw [hst] at hfin <;> first | cases hfin; done | simp
      refine carries_fin h hst ?_ ?_
      · simp only; split <;> rfl
      · simp only; split <;> rfl

/-- While the message has not been opened, only interim responses have been sent. -/
theorem waiting_step {m : SendMsg} (op : MsgOp) (hop : op.Ok)
    (h : (m.step op).2.2.state = .waitingForHeaders) :
    m.state = .waitingForHeaders ∧
      ∀ block interim ok, op = .headers block interim ok → m.response = true ∧ interim = true := by
  cases op with
  | headers block interim ok =>
    have hl : block.length ≤ 384 * 1024 := hop
    obtain ⟨e, he⟩ := headers_encode block (by omega)
    simp only [SendMsg.step, SendMsg.sendHeaders] at h
    cases hst : m.state with
    | waitingForHeaders =>
      refine ⟨rfl, ?_⟩
      rintro _ _ _ ⟨⟩
      rw [hst] at h
      cases hr : m.response <;> cases interim <;> simp [MsgState.newHeaders, hr, he] at h ⊢
    | waitingForData =>
      rw [hst] at h
      cases ok <;> simp [MsgState.newHeaders, he, hst] at h
    | trailersSet => rw [hst] at h; simp [MsgState.newHeaders, hst] at h
    | done => rw [hst] at h; simp [MsgState.newHeaders, hst] at h
  | data body avail =>
    refine ⟨?_, fun _ _ _ h => (by cases h)⟩
    by_cases hst : m.state = .waitingForData
    · exfalso
      have : (m.step (.data body avail)).2.2.state = m.state := by
        simp only [SendMsg.step, SendMsg.sendData]
        rw [if_neg (by simpa using hst)]
        by_cases hb : (m.flush avail).buf = []
        · rw [if_neg (by simpa using hb)]
          by_cases h3 : avail - min m.buf.length avail < 3
          · rw [if_pos h3]; rfl
          · rw [if_neg h3]
            generalize avail - min m.buf.length avail = A at *
            cases (do pure ((← encodeVarint 0) ++ (← encodeVarint (dataLen body.length A))) : Option Bytes) with
            | none => rfl
            | some hd =>
              simp only
              by_cases g1 : A < hd.length
              · rw [if_pos g1]; rfl
              · rw [if_neg g1]
                by_cases g2 : body.take (dataLen body.length A) = []
                · rw [if_pos g2]; rfl
                · rw [if_neg g2]
                  by_cases g3 : A - hd.length < (body.take (dataLen body.length A)).length
                  · rw [if_pos g3]; rfl
                  · rw [if_neg g3]; rfl
        · rw [if_pos (by simpa using hb)]; rfl
      rw [this, hst] at h
      cases h
    · simp only [SendMsg.step, SendMsg.sendData] at h
      rw [if_pos (by simpa using hst)] at h
      exact h
  | send avail =>
    refine ⟨?_, fun _ _ _ h => (by cases h)⟩
    simp only [SendMsg.step, SendMsg.send] at h
    split at h <;> exact h
  | close =>
    refine ⟨?_, fun _ _ _ h => (by cases h)⟩
    simp only [SendMsg.step, SendMsg.close] at h
    have hx : ∀ {m0 : SendMsg}, (if m0.buf = [] then { m0 with closed := true } else m0).state = m0.state := by
      intro m0; split <;> rfl
    cases hst : m.state <;> rw [hst] at h <;> simp only [MsgState.fin] at h
    · rw [hx (m0 := { m with state := .done })] at h; cases h
    · rw [hx (m0 := { m with state := .done })] at h; cases h
    · rw [hst] at h; cases h

theorem carries_run {C : Ctx D H} {response : Bool} {all : List MsgOp} (hund : Understood C response all) :
    ∀ (ops before : List MsgOp) (m : SendMsg) (acc : List Accepted), all = before ++ ops → (∀ op ∈ ops, op.Ok) →
    MsgInv m acc → m.response = response → Carries C m acc →
    (m.state = .waitingForHeaders → ∀ b i k, MsgOp.headers b i k ∈ before → response = true ∧ i = true) →
    Carries C (m.run ops).2.2 (acc ++ (m.run ops).1)
  | [], before, m, acc, _, _, _, _, h, _ => by simpa [SendMsg.run] using h
  | op :: ops, before, m, acc, hall, hok, hinv, hr, h, hw => by
    have h1 := carries_step h op (hok op (by simp)) (by
      intro block interim ok e hst
      subst e
      rw [hr]
      exact hund before block interim ok ops hall (hw hst))
    obtain ⟨g1, _, g3⟩ := inv_step hinv op (hok op (by simp))
    have := carries_run hund ops (before ++ [op]) _ _ (by rw [hall]; simp) (fun x hx => hok x (by simp [hx])) g1
      (by rw [g3, hr]) h1 (by
        intro hst b i k hm
        obtain ⟨q1, q2⟩ := waiting_step op (hok op (by simp)) hst
        rcases List.mem_append.mp hm with hm | hm
        · exact hw q1 b i k hm
        · rw [List.mem_singleton] at hm
          rw [← hr]
          exact q2 b i k hm.symm)
    simp only [SendMsg.run]
    rw [← List.append_assoc]
    exact this

/-- The message in everything that was written and is to be written. -/
theorem whole_conveyed {C : Ctx D H} {response : Bool} {ops : List MsgOp} (hund : Understood C response ops)
    (hops : ∀ op ∈ ops, op.Ok) :
    let x := SendMsg.run { response := response } ops
    wholeMessage C (x.2.2.out ++ x.2.2.buf) (decide (x.2.2.state = .done)) =
      (conveyed C false x.1, if x.2.2.state = .done then .done else .more) := by
  intro x
  have h := carries_run hund ops [] { response := response } [] rfl hops (inv_new response) rfl
    ⟨[], .head, rfl, fun rest fin => by simp [prep], fun l => by simp⟩ (fun _ b i k hm => by cases hm)
  obtain ⟨evs, p, h1, h2, h3⟩ := h
  have h2' := h2 [] (decide (x.2.2.state = .done))
  have h3' := h3 []
  simp only [List.append_nil, List.nil_append] at h2' h3'
  show msg C .head (read C.kind (x.2.2.out ++ x.2.2.buf) _) = _
  show msg C .head (read C.kind (x.2.2.out ++ x.2.2.buf) _) = (conveyed C false (SendMsg.run { response := response } ops).1, _)
  rw [h3']
  rw [h2']
  have hst : (SendMsg.run { response := response } ops).2.2 = x.2.2 := rfl
  rw [hst] at h1 ⊢
  rw [Spec.conveyed, List.append_nil]
  cases hd : x.2.2.state <;> rw [hd] at h1
  · cases (show p = _ from h1); simp [prep, msg, message, read_nil]
  · cases (show p = _ from h1); simp [prep, msg, message, read_nil]
  · cases (show p = _ from h1); simp [prep, msg, message, read_nil]
  · cases p with
    | head => exact absurd rfl h1
    | body => simp [prep, msg, message, read_nil]
    | tail => simp [prep, msg, message, read_nil]

theorem conveyed_plain (C : Ctx D H) (id : Nat) (b : Bytes) : ∀ (l : List Accepted) (s : Bool),
    Ev.promise id b ∉ conveyed C s l
  | [], s => by cases s <;> simp [conveyed]
  | .headers c :: l, false => by
    simp only [conveyed]
    cases fields C c with
    | error e => simp
    | ok x =>
      obtain ⟨k, h⟩ := x
      have h1 := conveyed_plain C id b l true
      have h2 := conveyed_plain C id b l false
      cases k <;> simp [h1, h2]
  | .headers c :: l, true => by simp only [conveyed]; exact conveyed_plain C id b l true
  | .body bs :: l, s => by
    have := conveyed_plain C id b l s
    simp [conveyed, this]
  | .fin :: l, s => by
    have := conveyed_plain C id b l s
    simp [conveyed, this]

theorem mains_conveyed (C : Ctx D H) (l : List Accepted) (s : Bool) : mains (conveyed C s l) = conveyed C s l := by
  unfold mains
  rw [List.filter_eq_self]
  intro x hx
  cases x with
  | promise id b => exact absurd hx (conveyed_plain C id b l s)
  | _ => rfl

theorem promises_conveyed (C : Ctx D H) (l : List Accepted) (s : Bool) : promises C (conveyed C s l) = [] := by
  unfold promises
  rw [List.flatMap_eq_nil_iff]
  intro x hx
  cases x with
  | promise id b => exact absurd hx (conveyed_plain C id b l s)
  | _ => rfl

/-- What has been read agrees with the message in the stream, whatever follows. -/
theorem run_log_ext {C : Ctx D H} (hl : C.Laws) {first : Option Nat} {head : Bytes} (hs : Starts first head)
    (n : Nat) (ops : List (RmOp D)) {m : Rm D H} {r : Option RErr}
    (h : (Rm.init first n : Rm D H).run C ops = (m, r)) (hr : r ≠ some .panic) {rest : Bytes} {fin : Bool}
    (hf : Fol (total ⟨[], false⟩ ops).fin rest fin) :
    let W := wholeMessage C (head ++ (total ⟨[], false⟩ ops).avail ++ rest) fin
    (∃ log lost pend, OutRel C m.out m.blocked log pend ∧ W.1 = log ++ lost) ∧
      (∀ e, r = some (.main e) → W.2 = .failed e) := by
  intro W
  have hinv := run_inv hl (W := fun bs fin => wholeMessage C (head ++ bs) fin) ops ⟨[], false⟩ _ []
    (init_good (C := C) hs n).1 (init_good (C := C) hs n).2
  rw [h] at hinv
  have hWe : W = wholeMessage C (head ++ ((total ⟨[], false⟩ ops).avail ++ rest)) fin := by
    rw [← List.append_assoc]
  have hfol : ∀ s' : Src, (∃ pre post, ops = pre ++ post ∧ s' = total ⟨[], false⟩ pre) →
      ∃ rest', s'.avail ++ rest' = (total ⟨[], false⟩ ops).avail ++ rest ∧ Fol s'.fin rest' fin := by
    rintro s' ⟨pre, post, e1, e2⟩
    obtain ⟨rest1, h1, h2⟩ := total_fol s' post
    have hs' : total s' post = total ⟨[], false⟩ ops := by rw [e2, ← total_append, ← e1]
    rw [hs'] at h1 h2
    refine ⟨rest1 ++ rest, by rw [h1, List.append_assoc], fun hq => ?_⟩
    obtain ⟨q1, q2⟩ := h2 hq
    obtain ⟨q3, q4⟩ := hf q2
    exact ⟨by rw [q1, q3]; rfl, q4⟩
  cases r with
  | none =>
    obtain ⟨⟨log, hg⟩, hq⟩ := hinv
    obtain ⟨l, hl⟩ := sem_log hg.sem rest fin hf
    exact ⟨⟨log, l, [], hg.out, (by rw [hWe]; exact hl)⟩, fun e h => by cases h⟩
  | some e =>
    cases e with
    | panic => exact absurd rfl hr
    | main e =>
      obtain ⟨s', hx, log, lost, pend, ho, hb⟩ := hinv
      obtain ⟨rest', q1, q2⟩ := hfol s' hx
      have hb' := hb rest' fin q2
      simp only [left] at hb'
      rw [q1, ← hWe] at hb'
      refine ⟨⟨log, lost, pend, ho, (by rw [hb'])⟩, fun e' he => ?_⟩
      cases he
      rw [hb']
    | other e =>
      obtain ⟨s', hx, log, pend, ho, hb⟩ := hinv
      obtain ⟨rest', q1, q2⟩ := hfol s' hx
      obtain ⟨l, hb'⟩ := hb rest' fin q2
      simp only [left] at hb'
      rw [q1, ← hWe] at hb'
      exact ⟨⟨log, l, pend, ho, hb'⟩, fun e' he => by cases he⟩

/-! ## C105 -/

/-- What is between a sender and a receiver: what the receiver has of the stream
(`head` was read before it was known to be a request) is a beginning of what the sender
handed to it, and it has its end only when it has all of it and the sender closed it. -/
structure Joined (snd : SendMsg) (head : Bytes) (rcv : Src) : Prop where
  bytes : head ++ rcv.avail <+: snd.out
  fin : rcv.fin = true → snd.closed = true ∧ head ++ rcv.avail = snd.out

theorem joined_before {snd : SendMsg} {head : Bytes} (a b : List (RmOp D))
    (h : Joined snd head (total ⟨[], false⟩ (a ++ b))) : Joined snd head (total ⟨[], false⟩ a) := by
  rw [total_append] at h
  obtain ⟨rest, h1, h2⟩ := total_fol (total ⟨[], false⟩ a) b
  obtain ⟨g1, g2⟩ := h
  rw [h1] at g1 g2
  refine ⟨List.IsPrefix.trans (by rw [← List.append_assoc]; exact List.prefix_append _ _) g1, fun hf => ?_⟩
  obtain ⟨q1, q2⟩ := h2 hf
  rw [q1, List.append_nil] at g2
  exact g2 q2

theorem joined_log {C : Ctx D H} (hl : C.Laws) {response : Bool} {ops : List MsgOp} (hund : Understood C response ops)
    (hops : ∀ op ∈ ops, op.Ok) {first : Option Nat} {head : Bytes} (hs : Starts first head) (n : Nat)
    (rops : List (RmOp D)) (hj : Joined (SendMsg.run { response := response } ops).2.2 head (total ⟨[], false⟩ rops))
    {m : Rm D H} {r : Option RErr} (h : (Rm.init first n : Rm D H).run C rops = (m, r)) (hr : r ≠ some .panic) :
    got m.out <+: conveyed C false (SendMsg.run { response := response } ops).1 ∧ m.blocked = [] ∧
      ∀ e, r ≠ some (.main e) := by
  have hw := whole_conveyed hund hops
  obtain ⟨hi, _, _⟩ := inv_run ops _ _ (inv_new response) hops
  generalize SendMsg.run { response := response } ops = x at *
  simp only at hw
  obtain ⟨c, hc⟩ := hj.bytes
  have hf : Fol (total ⟨[], false⟩ rops).fin (c ++ x.2.2.buf) (decide (x.2.2.state = .done)) := by
    intro hf
    obtain ⟨h1, h2⟩ := hj.fin hf
    obtain ⟨h3, h4⟩ := hi.closed.mp h1
    rw [h2] at hc
    have : c = [] := by simpa using hc
    simp [this, h3, h4]
  obtain ⟨⟨log, lost, pend, g0, g1⟩, g2⟩ := run_log_ext hl hs n rops h hr hf
  have e : head ++ (total ⟨[], false⟩ rops).avail ++ (c ++ x.2.2.buf) = x.2.2.out ++ x.2.2.buf := by
    rw [← List.append_assoc, hc]
  rw [e, hw] at g1 g2
  simp only at g1 g2
  refine ⟨?_, ?_, fun er he => ?_⟩
  · rw [← mains_conveyed, g1, mains_append, ← g0.1, List.append_assoc]
    exact List.prefix_append _ _
  · have hp := promises_conveyed C x.1 false
    rw [g1, promises_append, ← g0.2] at hp
    simp only [List.append_eq_nil_iff, List.map_eq_nil_iff] at hp
    exact hp.1.2
  · have := g2 er he
    split at this <;> cases this

/-- C105: whatever the sending application does, however the stream is divided, whatever
waits for the QPACK table and whenever the receiving application reads, it gets a
beginning of the message that was sent. -/
theorem C105_received_is_prefix_of_sent {C : Ctx D H} (hl : C.Laws) {response : Bool} {ops : List MsgOp}
    (hund : Understood C response ops) (hops : ∀ op ∈ ops, op.Ok) {first : Option Nat} {head : Bytes}
    (hs : Starts first head) (n : Nat) (rops : List (RmOp D))
    (hj : Joined (SendMsg.run { response := response } ops).2.2 head (total ⟨[], false⟩ rops)) {m : Rm D H}
    {r : Option RErr} (h : (Rm.init first n : Rm D H).run C rops = (m, r)) :
    got m.out <+: conveyed C false (SendMsg.run { response := response } ops).1 ∧
      (r = none ∨ ∃ e, r = some (.other e)) := by
  have hnp : r ≠ some .panic := by
    intro hr
    rw [hr] at h
    obtain ⟨pre, op, post, m0, e1, e2, _, e3, _⟩ := C71_panic_only hl hs n rops h
    rw [e1] at hj
    exact e3 (joined_log hl hund hops hs n pre (joined_before pre _ hj) e2 (by simp)).2.1
  obtain ⟨h1, _, h3⟩ := joined_log hl hund hops hs n rops hj h hnp
  refine ⟨h1, ?_⟩
  cases r with
  | none => exact .inl rfl
  | some e =>
    cases e with
    | panic => exact absurd rfl hnp
    | main e => exact absurd rfl (h3 e)
    | other e => exact .inr ⟨e, rfl⟩

theorem conveyed_fin {C : Ctx D H} : ∀ {l : List Accepted} {s : Bool}, Ev.fin ∈ conveyed C s l → Accepted.fin ∈ l
  | [], s, h => by cases s <;> simp [conveyed] at h
  | .headers b :: l, false, h => by
    simp only [conveyed] at h
    cases hf : fields C b with
    | error e => rw [hf] at h; cases h
    | ok x =>
      obtain ⟨k, y⟩ := x
      rw [hf] at h
      cases k <;> simp only [List.mem_cons, reduceCtorEq, false_or] at h <;>
        exact List.mem_cons_of_mem _ (conveyed_fin h)
  | .headers b :: l, true, h => by
    simp only [conveyed] at h
    exact List.mem_cons_of_mem _ (conveyed_fin h)
  | .body bs :: l, s, h => by
    simp only [conveyed, List.mem_append] at h
    rcases h with h | h
    · simp at h
    · exact List.mem_cons_of_mem _ (conveyed_fin h)
  | .fin :: l, s, h => by simp

/-- C105: when the receiving application is told of the end, the sender has ended the
message and the receiver has got all of it. -/
theorem C105_end_means_all_received {C : Ctx D H} (hl : C.Laws) {response : Bool} {ops : List MsgOp}
    (hund : Understood C response ops) (hops : ∀ op ∈ ops, op.Ok) {first : Option Nat} {head : Bytes}
    (hs : Starts first head) (n : Nat) (rops : List (RmOp D))
    (hj : Joined (SendMsg.run { response := response } ops).2.2 head (total ⟨[], false⟩ rops)) {m : Rm D H}
    {r : Option RErr} (h : (Rm.init first n : Rm D H).run C rops = (m, r)) (hfin : Ev.fin ∈ got m.out) :
    got m.out = conveyed C false (SendMsg.run { response := response } ops).1 ∧
      Accepted.fin ∈ (SendMsg.run { response := response } ops).1 := by
  obtain ⟨⟨c, hp⟩, _⟩ := C105_received_is_prefix_of_sent hl hund hops hs n rops hj h
  have hmem : Ev.fin ∈ conveyed C false (SendMsg.run { response := response } ops).1 := by
    rw [← hp]; exact List.mem_append_left _ hfin
  have hw := whole_conveyed hund hops
  simp only at hw
  have hm := message_fin C (read (http3 C.prio) _ _).1 .head (read (http3 C.prio) _ _).2
    (by rw [show message C .head (read (http3 C.prio) _ _).1 (read (http3 C.prio) _ _).2 = _ from hw]; exact hmem)
  rw [show message C .head (read (http3 C.prio) _ _).1 (read (http3 C.prio) _ _).2 = _ from hw] at hm
  obtain ⟨_, l, h2, h3⟩ := hm
  simp only at h2
  refine ⟨?_, conveyed_fin hmem⟩
  rw [h2] at hp ⊢
  rcases List.eq_nil_or_concat c with rfl | ⟨c', x, rfl⟩
  · rw [List.append_nil] at hp; exact hp
  · exfalso
    rw [List.concat_eq_append, ← List.append_assoc] at hp
    have := (List.append_inj' hp rfl).1
    apply h3
    rw [← this]
    exact List.mem_append_left _ hfin

/-- C105: nothing is kept back.  When everything that was sent has arrived and the QPACK
decoder does not hold the stream up, the application either has the whole message or its
next read (into a buffer of any size but zero) gets more of it. -/
theorem C105_all_can_be_read {C : Ctx D H} (hl : C.Laws) {response : Bool} {ops : List MsgOp}
    (hund : Understood C response ops) (hops : ∀ op ∈ ops, op.Ok) {first : Option Nat} {head : Bytes}
    (hs : Starts first head) (n : Nat) (rops : List (RmOp D))
    (hj : Joined (SendMsg.run { response := response } ops).2.2 head (total ⟨[], false⟩ rops))
    (hall : (total ⟨[], false⟩ rops).fin = true) {m : Rm D H}
    (h : (Rm.init first n : Rm D H).run C rops = (m, none)) (hw : m.waiting = none)
    (room : Nat) (hroom : 0 < room) (E : Env D) :
    got m.out = conveyed C false (SendMsg.run { response := response } ops).1 ∨
    match m.step C (.read room E) with
    | (_, some e) => ∃ e', e = .other e'
    | (m', none) => (got m.out).length < (got m'.out).length := by
  have hp := C71_progress hl hs n rops h hw room hroom E
  have hwh := whole_conveyed hund hops
  simp only at hwh
  obtain ⟨hi, _, _⟩ := inv_run ops _ _ (inv_new response) hops
  obtain ⟨q1, q2⟩ := hj.fin hall
  obtain ⟨q3, q4⟩ := hi.closed.mp q1
  rw [q4, q3, ← q2, List.append_nil, decide_eq_true (Eq.refl MsgState.done)] at hwh
  rw [hall, hwh, mains_conveyed] at hp
  rcases hp with hp | hp
  · exact .inl hp
  · refine .inr ?_
    cases hx : m.step C (.read room E) with
    | mk m' o =>
      rw [hx] at hp
      cases o with
      | none => exact hp
      | some e =>
        have hrun : (Rm.init first n : Rm D H).run C (rops ++ [.read room E]) = (m', some e) := by
          have hra : ∀ (a : List (RmOp D)) (m0 : Rm D H), m0.run C a = (m, none) →
              m0.run C (a ++ [.read room E]) = (m', some e) := by
            intro a
            induction a with
            | nil => intro m0 h0; cases h0; simp only [List.nil_append, Rm.run, hx]
            | cons op a ih =>
              intro m0 h0
              simp only [List.cons_append, Rm.run] at h0 ⊢
              cases hy : m0.step C op with
              | mk m1 o1 =>
                rw [hy] at h0
                cases o1 with
                | some e1 => cases h0
                | none => exact ih m1 h0
          exact hra rops _ h
        have ht : total (⟨[], false⟩ : Src) (rops ++ [RmOp.read room E]) = total ⟨[], false⟩ rops := by
          rw [total_append]; rfl
        rcases (C105_received_is_prefix_of_sent hl hund hops hs n (rops ++ [.read room E]) (by rw [ht]; exact hj) hrun).2 with h' | ⟨e', h'⟩
        · cases h'
        · cases h'
          exact ⟨e', rfl⟩

/-- C105: over two connected endpoints and the network between them.  The message is
written to stream `k` and the receiver has what its endpoint read from it. -/
theorem C105_over_any_network {C : Ctx D H} (hl : C.Laws) {response : Bool} {ops : List MsgOp}
    (hund : Understood C response ops) (hops : ∀ op ∈ ops, op.Ok) {first : Option Nat} {head : Bytes}
    (hs : Starts first head) (n : Nat) (rops : List (RmOp D))
    {s : E2E.Sys} (hreach : E2E.Reached s) {k : Nat}
    (hwritten : s.written k = (SendMsg.run { response := response } ops).2.2.out)
    (hclosed : s.closed k = (SendMsg.run { response := response } ops).2.2.closed)
    (hread : head ++ (total ⟨[], false⟩ rops).avail = s.read k)
    (hfin : (total ⟨[], false⟩ rops).fin = true → s.sawFin k) {m : Rm D H}
    {r : Option RErr} (h : (Rm.init first n : Rm D H).run C rops = (m, r)) :
    got m.out <+: conveyed C false (SendMsg.run { response := response } ops).1 ∧
      (r = none ∨ ∃ e, r = some (.other e)) ∧
      (Ev.fin ∈ got m.out → got m.out = conveyed C false (SendMsg.run { response := response } ops).1 ∧
        Accepted.fin ∈ (SendMsg.run { response := response } ops).1) := by
  have hj : Joined (SendMsg.run { response := response } ops).2.2 head (total ⟨[], false⟩ rops) := by
    refine ⟨?_, fun hf => ?_⟩
    · rw [hread, ← hwritten]
      exact E2E.C94_read_is_prefix_of_written hreach k
    · obtain ⟨q1, q2⟩ := E2E.C94_fin_means_everything_read hreach (hfin hf)
      exact ⟨by rw [← hclosed]; exact q1, by rw [hread, q2, hwritten]⟩
  obtain ⟨g1, g2⟩ := C105_received_is_prefix_of_sent hl hund hops hs n rops hj h
  exact ⟨g1, g2, C105_end_means_all_received hl hund hops hs n rops hj h⟩

/-! ## Examples -/

/-- A response: an interim one, fields that wait for an insertion, a body in two
pieces, trailers, the end. -/
def e2eOps : List MsgOp :=
  [.headers [1] true false, .headers [0xff, 2] false false, .send 100, .data [10, 11] 100, .data [12] 100,
   .headers [9] false true, .close, .send 100]

def e2eRcv : List (RmOp Bytes) :=
  [.arrive [0x01, 0x01, 0x01, 0x01, 0x02, 0xff] false exEnv, .arrive [0x02, 0x00, 0x02, 0x0a] false exEnv,
   .insert 1 exEnv, .read 5 exEnv, .arrive [0x0b, 0x00, 0x01, 0x0c, 0x01] false exEnv, .read 1 exEnv, .read 5 exEnv,
   .arrive [0x01, 0x09] true exEnv, .read 5 exEnv]

example : (SendMsg.run { response := true } e2eOps).1 =
      [.headers [1], .headers [0xff, 2], .body [10, 11], .body [12], .headers [9], .fin] ∧
    conveyed (exCtx true) false (SendMsg.run { response := true } e2eOps).1 =
      [.headers [1], .headers [0xff, 2], .byte 10, .byte 11, .byte 12, .fin] := by decide +kernel

theorem e2e_understood : Understood (exCtx true) true e2eOps := by
  intro before block interim ok after h hb
  rcases before with _ | ⟨x0, _ | ⟨x1, before⟩⟩
  · cases h; exact ⟨by simp, [1], by decide⟩
  · cases h; exact ⟨by simp, [0xff, 2], by decide⟩
  · exfalso
    unfold e2eOps at h
    simp only [List.cons_append, List.cons.injEq] at h
    have := (hb [0xff, 2] false false (by rw [← h.2.1]; simp)).2
    cases this

theorem e2e_ok : ∀ op ∈ e2eOps, op.Ok := by
  intro op h
  simp only [e2eOps, List.mem_cons, List.not_mem_nil, or_false] at h
  rcases h with rfl | rfl | rfl | rfl | rfl | rfl | rfl | rfl <;> simp [MsgOp.Ok]

theorem e2e_joined : Joined (SendMsg.run { response := true } e2eOps).2.2 [] (total ⟨[], false⟩ e2eRcv) :=
  ⟨by decide +kernel, fun _ => by decide +kernel⟩

example : got ((Rm.init none 0 : Rm Bytes Bytes).run (exCtx true) e2eRcv).1.out =
      [.headers [1], .headers [0xff, 2], .byte 10, .byte 11, .byte 12, .fin] ∧
    ((Rm.init none 0 : Rm Bytes Bytes).run (exCtx true) e2eRcv).2 = none := by decide +kernel

/-- The hypotheses of the theorems hold of this message. -/
example : got ((Rm.init none 0 : Rm Bytes Bytes).run (exCtx true) e2eRcv).1.out =
    conveyed (exCtx true) false (SendMsg.run { response := true } e2eOps).1 :=
  (C105_end_means_all_received (exCtx_laws true) e2e_understood e2e_ok (first := none) (head := []) rfl 0
    e2eRcv e2e_joined rfl (by decide +kernel)).1

/-- The same message written to a stream, sent in one frame that arrives twice, and read. -/
def e2eNet : List E2E.Ev :=
  [.opens 0 100 100,
   .send 0 (.write [0x01, 0x01, 0x01, 0x01, 0x02, 0xff, 0x02, 0x00, 0x02, 0x0a, 0x0b, 0x00, 0x01, 0x0c, 0x01, 0x01, 0x09] false),
   .send 0 .close, .send 0 (.frames 0 100 0), .arrive 0 0, .recv 0 (.read 7), .arrive 0 0, .recv 0 (.read 100)]

/-- The hypotheses of `C105_over_any_network` hold of it. -/
example : ∃ s, E2E.Reached s ∧ decide (
    s.written 0 = (SendMsg.run { response := true } e2eOps).2.2.out ∧
    s.closed 0 = (SendMsg.run { response := true } e2eOps).2.2.closed ∧
    (total ⟨[], false⟩ e2eRcv).avail = s.read 0 ∧
    RecvS.Out.data [0x00, 0x02, 0x0a, 0x0b, 0x00, 0x01, 0x0c, 0x01, 0x01, 0x09] true ∈ RecvS.readsOf 0 s.rops s.routs) = true :=
  E2E.reached_of (m0 := 50) (m := 60) (evs := e2eNet) (by decide) (by decide) (by simp [e2eNet]) (by decide +kernel)

end Neqo.H3
