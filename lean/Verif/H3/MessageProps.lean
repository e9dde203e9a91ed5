import Verif.H3.Message
import Verif.H3.SendProps

/-!
# C69: a message is sent as it was given
-/
namespace Neqo.H3
open Neqo.Codec
open Spec (read also)

theorem dataLen_bounds (len available : Nat) (h3 : 3 ≤ available) :
    dataLen len available ≤ len ∧ (0 < len → 0 < dataLen len available) ∧
    dataLen len available + 2 ≤ available ∧
    (64 ≤ dataLen len available → dataLen len available + 3 ≤ available) ∧
    (16384 ≤ dataLen len available → dataLen len available + 5 ≤ available) ∧
    (2 ^ 30 ≤ dataLen len available → dataLen len available + 9 ≤ available) := by
  unfold dataLen
  (repeat' split) <;> omega

/-- The DATA frame that is written always fits. -/
theorem dataLen_fits (len available : Nat) (h3 : 3 ≤ available) (hm : available < 2 ^ 62) :
    ∃ a b, encodeVarint 0 = some a ∧ encodeVarint (dataLen len available) = some b ∧
      (a ++ b).length + dataLen len available ≤ available := by
  obtain ⟨_, _, b1, b2, b3, b4⟩ := dataLen_bounds len available h3
  generalize dataLen len available = n at *
  obtain ⟨a, ha, _⟩ := encodeVarint_decode (v := 0) (by decide)
  obtain ⟨b, hb, _⟩ := encodeVarint_decode (v := n) (by omega)
  refine ⟨a, b, ha, hb, ?_⟩
  have h1 := encodeVarint_length 0
  have h2 := encodeVarint_length n
  rw [ha] at h1
  rw [hb] at h2
  simp only [Option.map_some] at h1 h2
  have ha1 : a.length = 1 := by simpa [varintLen] using h1
  rw [List.length_append, ha1]
  unfold varintLen at h2
  simp only [Nat.shiftLeft_eq] at h2
  repeat' split at h2
  all_goals simp at h2
  all_goals omega

/-! ## What the bytes written stand for -/

/-- The parts in what was written. -/
def sentParts : List Sent → List Spec.Part
  | [] => []
  | .frame (.headers b) :: rest => .fields b :: sentParts rest
  | .data p :: rest => p.map .byte ++ sentParts rest
  | _ :: rest => sentParts rest

theorem received_append : ∀ (a b : List (Item HFrame)),
    Spec.received (a ++ b) = Spec.received a ++ Spec.received b
  | [], b => rfl
  | .byte x :: a, b => by simp [Spec.received, received_append a b]
  | .frame f :: a, b => by cases f <;> simp [Spec.received, received_append a b]

theorem received_bytes : ∀ (p : Bytes), Spec.received (p.map .byte) = p.map .byte
  | [] => rfl
  | b :: p => by simp [Spec.received, received_bytes p]

theorem sentParts_append : ∀ (a b : List Sent), sentParts (a ++ b) = sentParts a ++ sentParts b
  | [], b => rfl
  | .frame f :: a, b => by cases f <;> simp [sentParts, sentParts_append a b]
  | .data p :: a, b => by simp [sentParts, sentParts_append a b]
  | .grease r p :: a, b => by simp [sentParts, sentParts_append a b]

theorem accepted_append : ∀ (a b : List Accepted),
    Spec.accepted (a ++ b) = Spec.accepted a ++ Spec.accepted b
  | [], b => rfl
  | .headers x :: a, b => by simp [Spec.accepted, accepted_append a b]
  | .body x :: a, b => by simp [Spec.accepted, accepted_append a b]
  | .fin :: a, b => by simp [Spec.accepted, accepted_append a b]

theorem received_sent {ss : List Sent} {gs : List (List (Item HFrame))}
    (h : Spec.AllArrive ss gs) : Spec.received gs.flatten = sentParts ss := by
  induction h with
  | nil => rfl
  | @cons s ss g gs ha _ ih =>
    rw [List.flatten_cons, received_append, ih]
    cases s with
    | frame f =>
      cases f with
      | settings s => obtain ⟨s', rfl, _⟩ := ha; rfl
      | _ => cases (show g = _ from ha); rfl
    | data p =>
      cases (show g = _ from ha)
      simp [Spec.received, sentParts, received_bytes]
    | grease r p => cases (show g = _ from ha); rfl

theorem encodeAll_append {disp : Priority → Bytes} : ∀ (a b : List Sent) (x y : Bytes),
    encodeAll disp a = some x → encodeAll disp b = some y → encodeAll disp (a ++ b) = some (x ++ y)
  | [], b, x, y, hx, hy => by
    simp only [encodeAll, Option.some.injEq] at hx; subst hx; simpa using hy
  | s :: a, b, x, y, hx, hy => by
    cases hs : s.encode disp with
    | none => simp [encodeAll, hs] at hx
    | some e =>
      cases ha : encodeAll disp a with
      | none => simp [encodeAll, hs, ha] at hx
      | some r =>
        simp [encodeAll, hs, ha] at hx
        subst hx
        have := encodeAll_append a b r y ha hy
        simp [encodeAll, hs, this]

/-- What a message writes. -/
def Plain : Sent → Prop
  | .frame (.headers b) => b.length ≤ 384 * 1024
  | .data p => p.length < 2 ^ 62
  | _ => False

theorem plain_arrive (prio : Bytes → Except Err Priority) : ∀ (ss : List Sent) (bs : Bytes),
    (∀ s ∈ ss, Plain s) → encodeAll (fun _ => []) ss = some bs →
    ∃ groups, Spec.AllArrive ss groups ∧ ∀ rest fin,
      read (Spec.http3 prio) (bs ++ rest) fin =
        also groups.flatten (read (Spec.http3 prio) rest fin)
  | [], bs, _, hb => by
    simp only [encodeAll, Option.some.injEq] at hb; subst hb
    exact ⟨[], .nil, fun _ _ => rfl⟩
  | s :: ss, bs, h, hb => by
    have hs : ∃ e items, Sent.encode (fun _ => []) s = some e ∧ Spec.Arrives s items ∧
        ∀ rest fin, read (Spec.http3 prio) (e ++ rest) fin =
          also items (read (Spec.http3 prio) rest fin) := by
      have hp := h s (by simp)
      cases s with
      | frame f =>
        cases f with
        | headers b => exact headers_arrive prio _ b hp
        | _ => exact absurd hp id
      | data p => exact data_arrives prio _ p hp
      | grease r p => exact absurd hp id
    obtain ⟨e, items, he, ha, hr⟩ := hs
    cases hr' : encodeAll (fun _ => []) ss with
    | none => simp [encodeAll, he, hr'] at hb
    | some r =>
      simp [encodeAll, he, hr'] at hb
      subst hb
      obtain ⟨groups, hgs, hrs⟩ := plain_arrive prio ss r (fun x hx => h x (by simp [hx])) hr'
      refine ⟨items :: groups, .cons ha hgs, fun rest fin => ?_⟩
      rw [List.append_assoc, hr, hrs, also_also]
      rfl

/-! ## The order of a message -/

/-- What has been accepted in each state. -/
def ShapeAt (response : Bool) : MsgState → List Accepted → Prop
  | .waitingForHeaders, acc => ∃ hs : List Bytes, acc = hs.map .headers ∧ (response = false → hs = [])
  | .waitingForData, acc => ∃ (hs bodies : List Bytes), acc = hs.map .headers ++ bodies.map .body ∧
      hs ≠ [] ∧ (response = false → hs.length = 1)
  | .trailersSet, acc => ∃ (hs bodies : List Bytes) (t : Bytes),
      acc = hs.map .headers ++ bodies.map .body ++ [.headers t] ∧
      hs ≠ [] ∧ (response = false → hs.length = 1)
  | .done, acc => ∃ (hs bodies ts : List Bytes),
      acc = hs.map .headers ++ bodies.map .body ++ ts.map .headers ++ [.fin] ∧
      hs ≠ [] ∧ (response = false → hs.length = 1) ∧ ts.length ≤ 1

/-- Holds after any calls. -/
structure MsgInv (m : SendMsg) (acc : List Accepted) : Prop where
  log : ∃ log, (∀ s ∈ log, Plain s) ∧ encodeAll (fun _ => []) log = some (m.out ++ m.buf) ∧
    sentParts log = Spec.accepted acc
  closed : m.closed = true ↔ m.state = .done ∧ m.buf = []
  shape : ShapeAt m.response m.state acc

/-- Calls that a user can make: field sections within the limit (see
`C68_large_headers_refused`), and less space than 2^62 in the stream (it is at
most `TxBuffer::MAX_SIZE`). -/
def MsgOp.Ok : MsgOp → Prop
  | .headers block _ _ => block.length ≤ 384 * 1024
  | .data _ avail => avail < 2 ^ 62
  | .send _ => True
  | .close => True

theorem flush_eq (m : SendMsg) (avail : Nat) :
    (m.flush avail).out ++ (m.flush avail).buf = m.out ++ m.buf := by
  simp [SendMsg.flush]

theorem headers_encode (block : Bytes) (h : block.length < 2 ^ 62) :
    ∃ e, Sent.encode (fun _ => []) (.frame (.headers block)) = some e := by
  obtain ⟨a, ha, _⟩ := encodeVarint_decode (v := 1) (by decide)
  obtain ⟨l, hl, _⟩ := encodeVvec_ok h
  exact ⟨a ++ (l ++ block), by simp [Sent.encode, hType, hEncodeBody, ha, hl]⟩

theorem inv_flush {m : SendMsg} {acc : List Accepted} (h : MsgInv m acc) (avail : Nat)
    (hs : m.state ≠ .done) : MsgInv (m.flush avail) acc := by
  refine ⟨?_, ?_, h.shape⟩
  · obtain ⟨log, h1, h2, h3⟩ := h.log
    exact ⟨log, h1, by rw [flush_eq]; exact h2, h3⟩
  · show m.closed = true ↔ m.state = .done ∧ _
    rw [h.closed]
    simp [hs]

theorem inv_step {m : SendMsg} {acc : List Accepted} (h : MsgInv m acc) (op : MsgOp) (hop : op.Ok) :
    MsgInv (m.step op).2.2 (acc ++ (m.step op).1) ∧ (m.step op).2.1 ≠ some .panic ∧
    (m.step op).2.2.response = m.response := by
  cases op with
  | headers block interim ok =>
    have hl : block.length ≤ 384 * 1024 := hop
    obtain ⟨e, he⟩ := headers_encode block (by omega)
    simp only [SendMsg.step, SendMsg.sendHeaders]
    cases hn : m.state.newHeaders m.response interim ok with
    | error er =>
      have : er = .invalidInput := by
        unfold MsgState.newHeaders at hn
        repeat' split at hn
        all_goals first | (cases hn; rfl) | cases hn
      subst this
      simp only [List.append_nil]
      exact ⟨h, by simp, trivial⟩
    | ok s =>
      simp only [he]
      refine ⟨⟨?_, ?_, ?_⟩, by simp, trivial⟩
      · obtain ⟨log, h1, h2, h3⟩ := h.log
        refine ⟨log ++ [.frame (.headers block)], ?_, ?_, ?_⟩
        · intro x hx
          rcases List.mem_append.mp hx with hx | hx
          · exact h1 x hx
          · simp only [List.mem_singleton] at hx; subst hx; exact hl
        · rw [← List.append_assoc]
          exact encodeAll_append _ _ _ _ h2 (by simp [encodeAll, he])
        · rw [sentParts_append, accepted_append, h3]; rfl
      · have hc := h.closed
        have hnd : m.state ≠ .done := by
          intro hd; rw [hd] at hn; cases hn
        have hnd' : s ≠ .done := by
          intro hd; subst hd
          unfold MsgState.newHeaders at hn
          repeat' split at hn
          all_goals cases hn
        simp only [hnd, false_and, iff_false] at hc
        simp [hc, hnd']
      · have hsh := h.shape
        unfold MsgState.newHeaders at hn
        show ShapeAt m.response s _
        cases hst : m.state with
        | waitingForHeaders =>
          rw [hst] at hsh hn
          obtain ⟨hs, rfl, hreq⟩ := hsh
          simp only at hn
          cases hr : m.response with
          | false =>
            simp only [hr, Bool.false_eq_true, if_false, Except.ok.injEq] at hn
            subst hn
            exact ⟨hs ++ [block], [], by simp, by simp, fun _ => by simp [hreq hr]⟩
          | true =>
            simp only [hr, if_true] at hn
            cases interim with
            | true =>
              simp only [if_true, Except.ok.injEq] at hn
              subst hn
              exact ⟨hs ++ [block], by simp, by simp⟩
            | false =>
              simp only [Bool.false_eq_true, if_false, Except.ok.injEq] at hn
              subst hn
              exact ⟨hs ++ [block], [], by simp, by simp, by simp⟩
        | waitingForData =>
          rw [hst] at hsh hn
          obtain ⟨hs, bodies, rfl, h1, h2⟩ := hsh
          simp only at hn
          cases ok with
          | false => simp at hn
          | true =>
            simp only [if_true, Except.ok.injEq] at hn
            subst hn
            exact ⟨hs, bodies, block, rfl, h1, h2⟩
        | trailersSet => rw [hst] at hn; cases hn
        | done => rw [hst] at hn; cases hn
  | data body avail =>
    have hav : avail < 2 ^ 62 := hop
    simp only [SendMsg.step, SendMsg.sendData]
    by_cases hst : m.state = .waitingForData
    · rw [if_neg (by simpa using hst)]
      have hf := inv_flush h avail (by rw [hst]; intro hc; cases hc)
      have hbody : ∀ (m' : SendMsg) (p : Bytes) (acc' : List Accepted), MsgInv m' acc' →
          m'.state = .waitingForData → MsgInv m' (acc' ++ [.body []]) := by
        intro m' p acc' hi hw
        refine ⟨?_, hi.closed, ?_⟩
        · rw [accepted_append]; simpa [Spec.accepted] using hi.log
        · have := hi.shape
          rw [hw] at this ⊢
          obtain ⟨hs, bodies, rfl, h1, h2⟩ := this
          exact ⟨hs, bodies ++ [[]], by simp, h1, h2⟩
      by_cases hb : (m.flush avail).buf = []
      · rw [if_neg (by simpa using hb)]
        by_cases h3 : avail - min m.buf.length avail < 3
        · rw [if_pos h3]
          refine ⟨?_, by simp, rfl⟩
          simpa using hbody _ [] _ hf hst
        · rw [if_neg h3]
          generalize hA : avail - min m.buf.length avail = A at *
          obtain ⟨a, b, ha, hbv, hfit⟩ := dataLen_fits body.length A (by omega) (by omega)
          obtain ⟨d1, d2, d3, _⟩ := dataLen_bounds body.length A (by omega)
          simp only [ha, hbv, bind, Option.bind, pure]
          rw [if_neg (by simp only [List.length_append] at hfit ⊢; omega)]
          have hmk : ∀ (p : Bytes), p = body.take (dataLen body.length A) →
              MsgInv { (m.flush avail) with out := (m.flush avail).out ++ (a ++ b) ++ p }
                (acc ++ [.body p]) := by
            intro p hp
            have hpl : p.length = dataLen body.length A := by
              rw [hp, List.length_take]; omega
            refine ⟨?_, ?_, ?_⟩
            · obtain ⟨log, h1, h2, h3⟩ := hf.log
              refine ⟨log ++ [.data p], ?_, ?_, ?_⟩
              · intro x hx
                rcases List.mem_append.mp hx with hx | hx
                · exact h1 x hx
                · simp only [List.mem_singleton] at hx; subst hx
                  show p.length < 2 ^ 62
                  omega
              · rw [hb, List.append_nil] at h2
                show _ = some (_ ++ (m.flush avail).buf)
                rw [hb, List.append_nil, List.append_assoc]
                exact encodeAll_append _ _ _ _ h2
                  (by simp [encodeAll, Sent.encode, ha, hpl, hbv])
              · rw [sentParts_append, accepted_append, h3]; rfl
            · have := hf.closed
              simpa using this
            · have := hf.shape
              have hst' : (m.flush avail).state = .waitingForData := hst
              rw [hst'] at this
              show ShapeAt m.response m.state _
              rw [hst]
              obtain ⟨hs, bodies, rfl, h1, h2⟩ := this
              exact ⟨hs, bodies ++ [p], by simp, h1, h2⟩
          by_cases hp : body.take (dataLen body.length A) = []
          · rw [if_pos hp]
            refine ⟨?_, by simp, rfl⟩
            have hi := hmk _ rfl
            rw [hp] at hi
            refine ⟨?_, ?_, ?_⟩
            · have := hi.log
              rw [accepted_append] at this
              simpa [Spec.accepted] using this
            · simpa using hi.closed
            · rw [List.append_nil]; exact hf.shape
          · rw [if_neg hp]
            rw [if_neg (by simp only [List.length_append, List.length_take] at hfit ⊢; omega)]
            refine ⟨?_, by simp, rfl⟩
            exact hmk _ rfl
      · rw [if_pos (by simpa using hb)]
        refine ⟨?_, by simp, rfl⟩
        simpa using hbody _ [] _ hf hst
    · rw [if_pos (by simpa using hst)]
      simp only [List.append_nil]
      exact ⟨h, by simp, trivial⟩
  | send avail =>
    simp only [SendMsg.step, List.append_nil, SendMsg.send]
    have hlog : ∃ log, (∀ s ∈ log, Plain s) ∧
        encodeAll (fun _ => []) log = some ((m.flush avail).out ++ (m.flush avail).buf) ∧
        sentParts log = Spec.accepted acc := by rw [flush_eq]; exact h.log
    by_cases hc : (m.flush avail).buf = [] ∧ (m.flush avail).state = .done
    · rw [if_pos hc]
      exact ⟨⟨hlog, by simp [hc.1, hc.2], h.shape⟩, by simp, rfl⟩
    · rw [if_neg hc]
      refine ⟨⟨hlog, ?_, h.shape⟩, by simp, rfl⟩
      constructor
      · intro hcl
        have := h.closed.mp hcl
        exact absurd ⟨by simp [SendMsg.flush, this.2], this.1⟩ hc
      · intro hx; exact absurd ⟨hx.2, hx.1⟩ hc
  | close =>
    simp only [SendMsg.step, SendMsg.close]
    cases hfin : m.state.fin with
    | error er =>
      have : er = .invalidInput := by
        unfold MsgState.fin at hfin
        split at hfin <;> cases hfin <;> rfl
      subst this
      simp only [List.append_nil]
      exact ⟨h, by simp, trivial⟩
    | ok s =>
      have hs : s = .done := by
        unfold MsgState.fin at hfin
        split at hfin <;> cases hfin <;> rfl
      subst hs
      have hnd : m.state ≠ .done := by intro hd; rw [hd] at hfin; cases hfin
      have hcl : m.closed = false := by
        cases hc : m.closed with
        | false => rfl
        | true => exact absurd (h.closed.mp hc).1 hnd
      have hshape : ShapeAt m.response .done (acc ++ [.fin]) := by
        have := h.shape
        cases hst : m.state with
        | waitingForHeaders => rw [hst] at hfin; cases hfin
        | done => exact absurd hst hnd
        | waitingForData =>
          rw [hst] at this
          obtain ⟨hs, bodies, rfl, h1, h2⟩ := this
          exact ⟨hs, bodies, [], by simp, h1, h2, by simp⟩
        | trailersSet =>
          rw [hst] at this
          obtain ⟨hs, bodies, t, rfl, h1, h2⟩ := this
          exact ⟨hs, bodies, [t], by simp, h1, h2, by simp⟩
      have hacc : Spec.accepted (acc ++ [.fin]) = Spec.accepted acc := by
        rw [accepted_append]; simp [Spec.accepted]
      simp only
      by_cases hb : m.buf = []
      · rw [if_pos hb]
        exact ⟨⟨by rw [hacc]; exact h.log, by simp [hb], hshape⟩, by simp, rfl⟩
      · rw [if_neg hb]
        exact ⟨⟨by rw [hacc]; exact h.log, by simp [hb, hcl], hshape⟩, by simp, rfl⟩

theorem inv_run : ∀ (ops : List MsgOp) (m : SendMsg) (acc : List Accepted), MsgInv m acc →
    (∀ op ∈ ops, op.Ok) →
    MsgInv (m.run ops).2.2 (acc ++ (m.run ops).1) ∧ SendErr.panic ∉ (m.run ops).2.1 ∧
    (m.run ops).2.2.response = m.response
  | [], m, acc, h, _ => by simpa [SendMsg.run] using h
  | op :: ops, m, acc, h, hok => by
    obtain ⟨h1, h2, h3⟩ := inv_step h op (hok op (by simp))
    obtain ⟨g1, g2, g3⟩ := inv_run ops _ _ h1 (fun x hx => hok x (by simp [hx]))
    simp only [SendMsg.run]
    refine ⟨by rw [← List.append_assoc]; exact g1, ?_, by rw [g3, h3]⟩
    intro hp
    rcases List.mem_append.mp hp with hp | hp
    · rw [Option.mem_toList] at hp
      exact h2 hp
    · exact g2 hp

theorem inv_new (response : Bool) : MsgInv { response := response } [] :=
  ⟨⟨[], by simp, rfl, rfl⟩, by simp, ⟨[], rfl, fun _ => rfl⟩⟩

/-! ## C69 -/

/-- C69: whatever a user does with a message, and whatever space the stream has
when, no call panics, and the receiver of the bytes written and still buffered,
in any division, reads exactly the field sections and body bytes that were
accepted, in order. -/
theorem C69_message (prio : Bytes → Except Err Priority) (response : Bool) (ops : List MsgOp)
    (hops : ∀ op ∈ ops, op.Ok) :
    SendErr.panic ∉ (SendMsg.run { response := response } ops).2.1 ∧
    ∀ (pieces : List Bytes) (fin : Bool), pieces ≠ [] →
      pieces.flatten = (SendMsg.run { response := response } ops).2.2.out ++
        (SendMsg.run { response := response } ops).2.2.buf →
      ∃ items, Pump.feed (hDecoder prio) hPayload ⟨Reader.new, 0⟩ pieces fin =
          (items, if fin then .finished else .more) ∧
        Spec.received items = Spec.accepted (SendMsg.run { response := response } ops).1 := by
  obtain ⟨hi, hnp, _⟩ := inv_run ops _ _ (inv_new response) hops
  refine ⟨hnp, fun pieces fin hne hfl => ?_⟩
  obtain ⟨log, h1, h2, h3⟩ := hi.log
  obtain ⟨groups, hgs, hr⟩ := plain_arrive prio log _ h1 h2
  refine ⟨groups.flatten, ?_, ?_⟩
  · rw [C43_http3 prio pieces fin hne, hfl]
    have := hr [] fin
    rw [List.append_nil] at this
    rw [this, read_nil]
    simp [also]
  · rw [received_sent hgs, h3]; rfl

/-- C69: the stream is closed exactly when the message has ended and everything
has been handed to the stream, so that what arrives before the end of the stream
is the whole message. -/
theorem C69_closed (response : Bool) (ops : List MsgOp) (hops : ∀ op ∈ ops, op.Ok) :
    (SendMsg.run { response := response } ops).2.2.closed = true ↔
      Accepted.fin ∈ (SendMsg.run { response := response } ops).1 ∧
      (SendMsg.run { response := response } ops).2.2.buf = [] := by
  obtain ⟨hi, _, _⟩ := inv_run ops _ _ (inv_new response) hops
  rw [hi.closed]
  refine and_congr_left (fun _ => ?_)
  have hsh := hi.shape
  rw [List.nil_append] at hsh
  generalize (SendMsg.run { response := response } ops).1 = acc at hsh
  cases hst : (SendMsg.run { response := response } ops).2.2.state <;> rw [hst] at hsh
  · obtain ⟨hs, rfl, _⟩ := hsh; simp
  · obtain ⟨hs, bodies, rfl, _⟩ := hsh; simp
  · obtain ⟨hs, bodies, t, rfl, _⟩ := hsh; simp
  · obtain ⟨hs, bodies, ts, rfl, _⟩ := hsh; simp

/-- C69: what is accepted is a message: field sections (one for a request; interim
responses and the response), then body, then at most one more field section, then
the end, and nothing after it. -/
theorem C69_order (response : Bool) (ops : List MsgOp) (hops : ∀ op ∈ ops, op.Ok) :
    ∃ (hs bodies ts : List Bytes) (ended : Bool),
      (SendMsg.run { response := response } ops).1 =
        hs.map .headers ++ bodies.map .body ++ ts.map .headers ++ (if ended then [.fin] else []) ∧
      (bodies ≠ [] ∨ ts ≠ [] ∨ ended = true → hs ≠ []) ∧ (response = false → hs.length ≤ 1) ∧
      ts.length ≤ 1 := by
  obtain ⟨hi, _, hresp⟩ := inv_run ops _ _ (inv_new response) hops
  have hsh := hi.shape
  rw [List.nil_append, hresp] at hsh
  cases hst : (SendMsg.run { response := response } ops).2.2.state <;> rw [hst] at hsh
  · obtain ⟨hs, he, hr⟩ := hsh
    exact ⟨hs, [], [], false, by simp [he], by simp, fun h => by simp [hr h], by simp⟩
  · obtain ⟨hs, bodies, he, h1, h2⟩ := hsh
    exact ⟨hs, bodies, [], false, by simp [he], fun _ => h1, fun h => by simp [h2 h], by simp⟩
  · obtain ⟨hs, bodies, t, he, h1, h2⟩ := hsh
    exact ⟨hs, bodies, [t], false, by simp [he], fun _ => h1, fun h => by simp [h2 h], by simp⟩
  · obtain ⟨hs, bodies, ts, he, h1, h2, h3⟩ := hsh
    exact ⟨hs, bodies, ts, true, by simp [he], fun _ => h1, fun h => by simp [h2 h], h3⟩

/-- C69: body is taken whenever the stream has room for a frame of three bytes. -/
theorem C69_progress (m : SendMsg) (body : Bytes) (avail : Nat) (hs : m.state = .waitingForData)
    (ha : m.buf.length + 3 ≤ avail) (hm : avail < 2 ^ 62) (hb : body ≠ []) :
    ∃ n m', m.sendData body avail = (.ok n, m') ∧ 0 < n ∧ n ≤ body.length := by
  have hbl := List.length_pos_iff.mpr hb
  unfold SendMsg.sendData
  rw [if_neg (by simpa using hs)]
  have hmin : min m.buf.length avail = m.buf.length := by omega
  have hbuf : (m.flush avail).buf = [] := by
    simp only [SendMsg.flush, List.drop_eq_nil_iff]; omega
  simp only [hmin]
  rw [if_neg (by simpa using hbuf), if_neg (by omega)]
  generalize hA : avail - m.buf.length = A
  obtain ⟨a, b, hav, hbv, hfit⟩ := dataLen_fits body.length A (by omega) (by omega)
  obtain ⟨d1, d2, d3, _⟩ := dataLen_bounds body.length A (by omega)
  simp only [hav, hbv, bind, Option.bind, pure]
  rw [if_neg (by simp only [List.length_append] at hfit ⊢; omega)]
  have d2' := d2 hbl
  rw [if_neg (by
    intro hp
    have := congrArg List.length hp
    rw [List.length_take] at this
    simp only [List.length_nil] at this
    omega)]
  rw [if_neg (by simp only [List.length_append, List.length_take] at hfit ⊢; omega)]
  exact ⟨_, _, rfl, d2', d1⟩

/-- A body of nothing: the call fails although it has written an (empty) DATA
frame. -/
theorem C69_empty_body :
    ∃ m : SendMsg, m.state = .waitingForData ∧
      m.sendData [] 100 = (.error .invalidInput, { m with out := m.out ++ [0, 0] }) :=
  ⟨{ response := false, state := .waitingForData }, rfl, by decide +kernel⟩

/-- A response with an interim response, a body in two calls with little room,
trailers and the end. -/
example :
    SendMsg.run { response := true } [.headers [9] true true, .headers [1, 2] false true, .send 3,
        .data [7, 8, 9] 5, .data [7, 8, 9] 8, .data [8, 9] 100, .headers [5] false true, .close, .send 50] =
      ([.headers [9], .headers [1, 2], .body [], .body [7, 8, 9], .body [8, 9], .headers [5], .fin], [],
        { response := true, state := .done, buf := [], closed := true,
          out := [1, 1, 9, 1, 2, 1, 2, 0, 3, 7, 8, 9, 0, 2, 8, 9, 1, 1, 5] }) := by
  decide +kernel

end Neqo.H3
