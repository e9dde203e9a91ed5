import Verif.H3.WtStream
import Verif.H3.HeadProps
import Verif.E2E.Props

/-!
# C107, C108: streams of WebTransport sessions
-/
namespace Neqo.H3
open Neqo.Codec
open Spec (wtAccepted wtClosed Tx.Works)

/-! ## One call -/

/-- What `send` can do while the preface has not been sent. -/
theorem wtSend_cases {s : WtSend} {buf : Bytes} {fin : Bool} (hst : s.st = .init buf fin) (hb : buf ≠ [])
    (hc : s.closed = false) (tx : Tx) :
    (∃ e, s.send tx = (s, some e) ∧ ¬ Tx.Works tx) ∨
    (∃ n, n < buf.length ∧ (Tx.Works tx → 0 < n) ∧
      s.send tx = ({ s with out := s.out ++ buf.take n, st := .init (buf.drop n) fin }, none)) ∨
    (∃ c, (tx.reliable = true → c = (s.out ++ buf).length) ∧ tx.known = true ∧
      s.send tx = (if fin then { s with out := s.out ++ buf, committed := c, closed := true, st := .done, ended := s.ended + 1 }
        else { s with out := s.out ++ buf, committed := c, st := .sending }, none)) := by
  unfold WtSend.send WtSend.streamSend
  rw [hst]
  dsimp only
  cases hk : tx.known with
  | false => exact .inl ⟨.invalidStreamId, rfl, fun h => by simp [Tx.Works, hk] at h⟩
  | true =>
    rw [if_neg (by simp), if_neg hb]
    cases ht : tx.takes with
    | false => exact .inl ⟨.transport, by simp, fun h => by simp [Tx.Works, ht] at h⟩
    | true =>
      simp only [Bool.not_true, hc, Bool.or_self, Bool.false_eq_true, if_false]
      by_cases hl : (buf.take tx.room).length = buf.length
      · rw [if_pos hl]
        have hfull : buf.take tx.room = buf := by
          apply List.take_of_length_le
          rw [List.length_take] at hl
          omega
        rw [hfull]
        unfold WtSend.prefaceSent WtSend.streamCommit
        simp only [hk, ht, Bool.not_true, Bool.false_eq_true, if_false]
        refine .inr (.inr ?_)
        cases hr : tx.reliable with
        | true =>
          refine ⟨(s.out ++ buf).length, fun _ => rfl, trivial, ?_⟩
          cases fin <;> simp [WtSend.streamClose, hk, ht, WtSend.setDone]
        | false =>
          refine ⟨s.committed, (fun h => by cases h), trivial, ?_⟩
          cases fin <;> simp [WtSend.streamClose, hk, ht, WtSend.setDone]
      · rw [if_neg hl]
        rw [List.length_take] at hl ⊢
        refine .inr (.inl ⟨min tx.room buf.length, by omega, ?_, ?_⟩)
        · rintro ⟨_, _, h⟩
          have := List.length_pos_iff.mpr hb
          omega
        · have : buf.take (min tx.room buf.length) = buf.take tx.room := by
            rw [show min tx.room buf.length = tx.room by omega]
          rw [this]

theorem wtSend_other {s : WtSend} (h : ∀ buf fin, s.st ≠ .init buf fin) (tx : Tx) : s.send tx = (s, none) := by
  unfold WtSend.send
  cases hst : s.st with
  | init buf fin => exact absurd hst (h buf fin)
  | sending => rfl
  | done => rfl

/-- The invariant: `acc` is what has been accepted, `cl` whether the application has
closed the stream, `ok` whether the connection is still up. -/
def WtInv (pre acc : Bytes) (cl ok : Bool) (h : WtHandle) : Prop :=
  match h.s.st with
  | .init buf fin => h.present = true ∧ buf ≠ [] ∧ h.s.out ++ buf = pre ∧ acc = [] ∧ fin = cl ∧ h.s.closed = false ∧
      (ok = true → fin = true → h.pending = true)
  | .sending => h.present = true ∧ cl = false ∧ h.s.closed = false ∧ h.s.out = pre ++ acc
  | .done => (h.s.out = pre ++ acc ∨ (acc = [] ∧ h.s.out <+: pre ∧ h.s.closed = false)) ∧
      (h.s.closed = true → cl = true) ∧
      (h.present = true → cl = true ∧ h.s.closed = true ∧ (ok = true → h.pending = true))

/-- Whether the call was one that closed the stream. -/
def closesWt : WtOp × WtRes → Bool
  | (.close _, .ok) => true
  | _ => false

/-- Whether the call closed the connection. -/
def breaksWt : WtOp × WtRes → Bool
  | (.process _, .failed _) => true
  | _ => false

theorem wtClosed_cons (x : WtOp × WtRes) (l : List (WtOp × WtRes)) :
    wtClosed (x :: l) = (closesWt x || wtClosed l) := by
  obtain ⟨op, r⟩ := x
  cases op <;> cases r <;> rfl

theorem wtAccepted_cons (x : WtOp × WtRes) (l : List (WtOp × WtRes)) :
    wtAccepted (x :: l) = wtAccepted [x] ++ wtAccepted l := by
  obtain ⟨op, r⟩ := x
  cases op <;> cases r <;> simp [wtAccepted]

/-- `send`, as part of any call. -/
theorem wtInv_send {pre acc : Bytes} {cl ok : Bool} {h : WtHandle} (hi : WtInv pre acc cl ok h) (hp : h.present = true)
    (tx : Tx) {s' : WtSend} {o : Option WtErr} (hs : h.s.send tx = (s', o)) :
    WtInv pre acc cl ok { h with s := s' } ∧ (cl = true → s'.st ≠ .sending) := by
  by_cases hst : ∃ buf fin, h.s.st = .init buf fin
  · obtain ⟨buf, fin, hst⟩ := hst
    unfold WtInv at hi
    rw [hst] at hi
    obtain ⟨i1, i2, i3, i4, i5, i6, i7⟩ := hi
    rcases wtSend_cases hst i2 i6 tx with ⟨e, q, _⟩ | ⟨n, q1, _, q⟩ | ⟨c, _, _, q⟩
    · rw [q] at hs; cases hs
      refine ⟨?_, fun _ => by rw [hst]; exact (fun h => by cases h)⟩
      unfold WtInv; simp only [hst]
      exact ⟨i1, i2, i3, i4, i5, i6, i7⟩
    · rw [q] at hs; cases hs
      refine ⟨?_, fun _ => (fun h => by cases h)⟩
      unfold WtInv
      refine ⟨i1, ?_, ?_, i4, i5, i6, i7⟩
      · intro h0
        have := congrArg List.length h0
        rw [List.length_drop, List.length_nil] at this
        omega
      · show h.s.out ++ buf.take n ++ buf.drop n = pre
        rw [List.append_assoc, List.take_append_drop, i3]
    · rw [q] at hs; cases hs
      cases fin with
      | false =>
        refine ⟨?_, fun hc => by rw [← i5] at hc; cases hc⟩
        unfold WtInv
        exact ⟨i1, i5.symm, i6, by rw [i4, List.append_nil]; exact i3⟩
      | true =>
        refine ⟨?_, fun _ => (fun h => by cases h)⟩
        unfold WtInv
        exact ⟨.inl (by rw [i4, List.append_nil]; exact i3), fun _ => i5.symm, fun _ => ⟨i5.symm, rfl, fun ho => i7 ho rfl⟩⟩
  · rw [wtSend_other (fun b f hb => hst ⟨b, f, hb⟩)] at hs
    cases hs
    refine ⟨hi, fun hc hse => ?_⟩
    unfold WtInv at hi
    rw [hse] at hi
    rw [hi.2.1] at hc; cases hc

/-- A connection that is no longer up. -/
theorem wtInv_down {pre acc : Bytes} {cl ok : Bool} {h : WtHandle} (hi : WtInv pre acc cl ok h) (p : Bool) :
    WtInv pre acc cl false { h with pending := p } := by
  unfold WtInv at *
  cases hst : h.s.st with
  | init buf fin =>
    simp only [hst] at hi ⊢
    exact ⟨hi.1, hi.2.1, hi.2.2.1, hi.2.2.2.1, hi.2.2.2.2.1, hi.2.2.2.2.2.1, fun h => by cases h⟩
  | sending => simp only [hst] at hi ⊢; exact hi
  | done =>
    simp only [hst] at hi ⊢
    exact ⟨hi.1, hi.2.1, fun h => ⟨(hi.2.2 h).1, (hi.2.2 h).2.1, fun h => by cases h⟩⟩

theorem streamCommit_cases (s : WtSend) (tx : Tx) :
    (∃ e, s.streamCommit tx = .error e) ∨ s.streamCommit tx = .ok { s with committed := s.out.length } := by
  unfold WtSend.streamCommit
  repeat' split
  all_goals first | exact .inr rfl | exact .inl ⟨_, rfl⟩

/-- One call. -/
theorem wtInv_step {pre acc : Bytes} {cl ok : Bool} {h : WtHandle} (hi : WtInv pre acc cl ok h) (op : WtOp) :
    WtInv pre (acc ++ wtAccepted [(op, (h.step op).2)]) (cl || closesWt (op, (h.step op).2))
      (ok && !breaksWt (op, (h.step op).2)) (h.step op).1 ∧
    (cl = true → wtAccepted [(op, (h.step op).2)] = []) ∧
    (h.present = false → wtAccepted [(op, (h.step op).2)] = [] ∧ (h.step op).1.present = false) := by
  cases op with
  | write data tx tx' =>
    simp only [WtHandle.step, WtHandle.write]
    cases hp : h.present with
    | false => simpa [wtAccepted, closesWt, breaksWt, hp] using hi
    | true =>
      simp only [Bool.not_true, Bool.false_eq_true, if_false, WtSend.sendData]
      cases hs : h.s.send tx with
      | mk s' o =>
        obtain ⟨h1, h2⟩ := wtInv_send hi hp tx hs
        cases o with
        | some e =>
          refine ⟨?_, fun _ => rfl, fun h => by cases h⟩
          simpa [wtAccepted, closesWt, breaksWt, hp] using h1
        | none =>
          simp only
          by_cases hse : s'.st = .sending
          · rw [if_pos hse]
            have h1' := h1
            unfold WtInv at h1'
            simp only [hse] at h1'
            obtain ⟨j1, j2, j3, j4⟩ := h1'
            unfold WtSend.streamSend
            by_cases hk : tx'.known = true
            · rw [if_neg (by simp [hk])]
              by_cases hd : data = []
              · rw [if_pos hd]
                refine ⟨?_, fun _ => rfl, fun h => by cases h⟩
                simpa [wtAccepted, closesWt, breaksWt, hp] using h1
              · rw [if_neg hd]
                by_cases ht : (!tx'.takes || s'.closed) = true
                · rw [if_pos ht]
                  refine ⟨?_, fun _ => rfl, fun h => by cases h⟩
                  simpa [wtAccepted, closesWt, breaksWt, hp] using h1
                · rw [if_neg ht]
                  refine ⟨?_, fun hc => absurd hse (h2 hc), fun h => by cases h⟩
                  unfold WtInv
                  simp only [hse]
                  refine ⟨trivial, by simp [j2, closesWt], j3, ?_⟩
                  rw [j4]
                  simp only [wtAccepted, List.append_nil, List.append_assoc]
                  congr 2
                  rw [List.length_take, ← List.take_eq_take_min]
            · rw [if_pos (by simpa using hk)]
              refine ⟨?_, fun _ => rfl, fun h => by cases h⟩
              simpa [wtAccepted, closesWt, breaksWt, hp] using h1
          · rw [if_neg hse]
            refine ⟨?_, fun _ => by simp [wtAccepted], fun h => by cases h⟩
            simpa [wtAccepted, closesWt, breaksWt, hp] using h1
  | close tx =>
    refine ⟨?_, fun _ => by cases (h.step (.close tx)).2 <;> rfl, fun hp => ⟨by cases (h.step (.close tx)).2 <;> rfl, ?_⟩⟩
    · have hacc : ∀ r, wtAccepted [(WtOp.close tx, r)] = [] := by intro r; cases r <;> rfl
      rw [hacc, List.append_nil]
      simp only [WtHandle.step, WtHandle.close]
      cases hp : h.present with
      | false => simpa [closesWt, breaksWt, hp] using hi
      | true =>
        simp only [Bool.not_true, Bool.false_eq_true, if_false]
        unfold WtInv at hi
        cases hst : h.s.st with
        | init buf fin =>
          simp only [hst] at hi
          obtain ⟨i1, i2, i3, i4, i5, i6, i7⟩ := hi
          have hcl : h.s.close tx = { h.s with st := .init buf true } := by unfold WtSend.close; rw [hst]
          rw [hcl, if_neg (by simp)]
          unfold WtInv
          exact ⟨rfl, i2, i3, i4, by simp [closesWt], i6, fun _ _ => by simp [WtSend.hasData]⟩
        | sending =>
          simp only [hst] at hi
          obtain ⟨i1, i2, i3, i4⟩ := hi
          have hcl : h.s.close tx = { h.s with st := .done, closed := (h.s.close tx).closed, ended := (h.s.close tx).ended } := by
            unfold WtSend.close
            rw [hst]
            simp only [WtSend.streamClose]
            by_cases hk : tx.known = true
            · rw [if_neg (by simp [hk])]
              by_cases ht : tx.takes = true
              · rw [if_neg (by simp [ht])]; rfl
              · rw [if_pos (by simpa using ht)]; rfl
            · rw [if_pos (by simpa using hk)]
          generalize (h.s.close tx).closed = c at hcl
          generalize (h.s.close tx).ended = n at hcl
          rw [hcl, if_pos rfl]
          unfold WtInv
          exact ⟨.inl i4, fun _ => by simp [closesWt], fun h => by cases h⟩
        | done =>
          simp only [hst] at hi
          obtain ⟨i1, i2, i3⟩ := hi
          obtain ⟨k1, k2, k3⟩ := i3 hp
          have hcl : h.s.close tx = { h.s with st := .done, closed := true, ended := (h.s.close tx).ended } := by
            unfold WtSend.close
            rw [hst]
            simp only [WtSend.streamClose]
            by_cases hk : tx.known = true
            · rw [if_neg (by simp [hk])]
              by_cases ht : tx.takes = true
              · rw [if_neg (by simp [ht])]; rfl
              · rw [if_pos (by simpa using ht)]; simp [WtSend.setDone, k2]
            · rw [if_pos (by simpa using hk)]; simp [k2]
          generalize (h.s.close tx).ended = n at hcl
          rw [hcl, if_pos rfl]
          unfold WtInv
          refine ⟨?_, fun _ => by simp [closesWt], fun h => by cases h⟩
          rcases i1 with i1 | ⟨_, _, i1⟩
          · exact .inl i1
          · rw [k2] at i1; cases i1
    · simp only [WtHandle.step, WtHandle.close, hp, Bool.not_false, if_true]
  | commit tx =>
    have hacc : ∀ r, wtAccepted [(WtOp.commit tx, r)] = [] := by intro r; cases r <;> rfl
    have hcl : ∀ r, closesWt (WtOp.commit tx, r) = false := by intro r; cases r <;> rfl
    have hbr : ∀ r, breaksWt (WtOp.commit tx, r) = false := by intro r; cases r <;> rfl
    refine ⟨?_, fun _ => hacc _, fun hp => ⟨hacc _, ?_⟩⟩
    · rw [hacc, hcl, hbr, List.append_nil, Bool.or_false, Bool.not_false, Bool.and_true]
      simp only [WtHandle.step, WtHandle.commit]
      cases hp : h.present with
      | false => simpa using hi
      | true =>
        simp only [Bool.not_true, Bool.false_eq_true, if_false, WtSend.commit]
        cases hs : h.s.send tx with
        | mk s' o =>
          obtain ⟨h1, _⟩ := wtInv_send hi hp tx hs
          cases o with
          | some e => simpa [hp] using h1
          | none =>
            simp only
            by_cases hse : s'.st = .sending
            · rw [if_pos hse]
              rcases streamCommit_cases s' tx with ⟨e, q⟩ | q <;> rw [q]
              · simpa [hp] using h1
              · unfold WtInv at h1 ⊢
                simp only [hse] at h1 ⊢
                simpa [hp] using h1
            · rw [if_neg hse]
              simpa [hp] using h1
    · simp only [WtHandle.step, WtHandle.commit, hp, Bool.not_false, if_true]
  | process tx =>
    have hacc : ∀ r, wtAccepted [(WtOp.process tx, r)] = [] := by intro r; cases r <;> rfl
    have hcl : ∀ r, closesWt (WtOp.process tx, r) = false := by intro r; cases r <;> rfl
    refine ⟨?_, fun _ => hacc _, fun hp => ⟨hacc _, ?_⟩⟩
    · rw [hacc, hcl, List.append_nil, Bool.or_false]
      simp only [WtHandle.step, WtHandle.process]
      cases hpe : h.pending with
      | false => simpa [breaksWt] using hi
      | true =>
        simp only [Bool.not_true, Bool.false_eq_true, if_false]
        cases hp : h.present with
        | false =>
          simp only [Bool.not_false, if_true, breaksWt, Bool.not_false, Bool.and_true]
          unfold WtInv at hi ⊢
          cases hst : h.s.st <;> simp only [hst, hp, Bool.false_eq_true, false_and] at hi ⊢
          exact ⟨hi.1, hi.2.1, fun h => by cases h⟩
        | true =>
          simp only [Bool.not_true, Bool.false_eq_true, if_false]
          cases hs : h.s.send tx with
          | mk s' o =>
            obtain ⟨h1, _⟩ := wtInv_send hi hp tx hs
            cases o with
            | some e =>
              simp only [breaksWt, Bool.not_true, Bool.and_false]
              have := wtInv_down h1 false
              simpa [hp] using this
            | none =>
              simp only [breaksWt, Bool.not_false, Bool.and_true]
              unfold WtInv at h1 ⊢
              cases hst : s'.st with
              | init buf fin =>
                simp only [hst] at h1 ⊢
                exact ⟨by simp, h1.2.1, h1.2.2.1, h1.2.2.2.1, h1.2.2.2.2.1, h1.2.2.2.2.2.1, fun _ _ => by simp [WtSend.hasData, hst]⟩
              | sending =>
                simp only [hst] at h1 ⊢
                exact ⟨by simp, h1.2⟩
              | done =>
                simp only [hst] at h1 ⊢
                exact ⟨h1.1, h1.2.1, fun h => by simp at h⟩
    · simp only [WtHandle.step, WtHandle.process, hp, Bool.not_false, if_true]
      split
      · exact hp
      · rfl
  | stop =>
    have hr : (h.step .stop).2 = .ok := by
      simp only [WtHandle.step, WtHandle.stop]; split <;> rfl
    refine ⟨?_, fun _ => by rw [hr]; rfl, fun hp => ⟨by rw [hr]; rfl, ?_⟩⟩
    · rw [hr]
      simp only [wtAccepted, closesWt, breaksWt, List.append_nil, Bool.or_false, Bool.not_false, Bool.and_true]
      simp only [WtHandle.step, WtHandle.stop]
      cases hp : h.present with
      | false => simpa using hi
      | true =>
        simp only [if_true]
        unfold WtInv at hi
        show (_ ∨ _) ∧ _ ∧ _
        cases hst : h.s.st with
        | init buf fin =>
          simp only [hst] at hi
          obtain ⟨i1, i2, i3, i4, i5, i6, i7⟩ := hi
          refine ⟨.inr ⟨i4, ⟨buf, i3⟩, i6⟩, fun hc => ?_, fun h => by cases h⟩
          rw [show h.s.setDone.closed = h.s.closed from rfl, i6] at hc; cases hc
        | sending =>
          simp only [hst] at hi
          obtain ⟨i1, i2, i3, i4⟩ := hi
          refine ⟨.inl i4, fun hc => ?_, fun h => by cases h⟩
          rw [show h.s.setDone.closed = h.s.closed from rfl, i3] at hc; cases hc
        | done =>
          simp only [hst] at hi
          exact ⟨hi.1, hi.2.1, fun h => by cases h⟩
    · simp only [WtHandle.step, WtHandle.stop, hp, Bool.false_eq_true, if_false]

/-! ## Any calls -/

def healthyWt (log : List (WtOp × WtRes)) : Bool := log.all fun x => !breaksWt x

theorem wtInv_new (server uni : Bool) {pre : Bytes} (hp : pre ≠ []) :
    WtInv pre [] false true (WtHandle.new server uni pre) :=
  ⟨rfl, hp, rfl, rfl, rfl, rfl, (fun _ h => by cases h)⟩

theorem wtInv_run {pre : Bytes} : ∀ (ops : List WtOp) {acc : Bytes} {cl ok : Bool} {h : WtHandle},
    WtInv pre acc cl ok h →
    WtInv pre (acc ++ wtAccepted (h.run ops).2) (cl || wtClosed (h.run ops).2) (ok && healthyWt (h.run ops).2) (h.run ops).1 ∧
    (cl = true → wtAccepted (h.run ops).2 = []) ∧
    (h.present = false → wtAccepted (h.run ops).2 = [])
  | [], acc, cl, ok, h, hi => by
    refine ⟨?_, fun _ => rfl, fun _ => rfl⟩
    simpa [WtHandle.run, wtAccepted, wtClosed, healthyWt] using hi
  | op :: ops, acc, cl, ok, h, hi => by
    obtain ⟨h1, h2, h3⟩ := wtInv_step hi op
    obtain ⟨g1, g2, g3⟩ := wtInv_run ops h1
    have e : h.run (op :: ops) = (((h.step op).1.run ops).1, (op, (h.step op).2) :: ((h.step op).1.run ops).2) := rfl
    rw [e]
    simp only
    rw [wtAccepted_cons, wtClosed_cons]
    refine ⟨?_, fun hc => ?_, fun hp => ?_⟩
    · have e2 : healthyWt ((op, (h.step op).2) :: ((h.step op).1.run ops).2) =
          (!breaksWt (op, (h.step op).2) && healthyWt ((h.step op).1.run ops).2) := rfl
      rw [e2, ← List.append_assoc, ← Bool.or_assoc, ← Bool.and_assoc]
      exact g1
    · rw [h2 hc, g2 (by rw [hc]; rfl)]; rfl
    · rw [(h3 hp).1, g3 (h3 hp).2]; rfl

theorem wtRun_append (h : WtHandle) : ∀ (a b : List WtOp),
    h.run (a ++ b) = (((h.run a).1.run b).1, (h.run a).2 ++ ((h.run a).1.run b).2)
  | a, b => by
    induction a generalizing h with
    | nil => rfl
    | cons op a ih =>
      have e : ∀ l, h.run (op :: l) = (((h.step op).1.run l).1, (op, (h.step op).2) :: ((h.step op).1.run l).2) := fun _ => rfl
      rw [List.cons_append, e, e, ih]
      rfl

theorem wtAccepted_append (a b : List (WtOp × WtRes)) : wtAccepted (a ++ b) = wtAccepted a ++ wtAccepted b := by
  induction a with
  | nil => rfl
  | cons x a ih => rw [List.cons_append, wtAccepted_cons, ih, ← List.append_assoc, ← wtAccepted_cons]

theorem healthyWt_append (a b : List (WtOp × WtRes)) : healthyWt (a ++ b) = (healthyWt a && healthyWt b) :=
  List.all_append

/-! ## The preface -/

theorem wtPreface_spec {session : Nat} (hs : session < 2 ^ 62) (uni : Bool) :
    ∃ t i, wtPreface uni session = some (t ++ i) ∧ (∀ r, decodeVarint (t ++ r) = some (if uni then 0x54 else 0x41, r)) ∧
      (∀ r, decodeVarint (i ++ r) = some (session, r)) ∧ i ≠ [] := by
  obtain ⟨t, ht, ht'⟩ := encodeVarint_decode (v := if uni then 0x54 else 0x41) (by cases uni <;> decide)
  obtain ⟨i, hi, hi'⟩ := encodeVarint_decode hs
  refine ⟨t, i, by simp [wtPreface, ht, hi], ht', hi', ?_⟩
  rintro rfl
  have := hi' []
  cases this

theorem wtMeaning (role : Role) (uni : Bool) :
    Spec.meaning role (!uni) (if uni then 0x54 else 0x41) = .withId .webTransport := by
  cases uni <;> rfl

theorem head_preface (role : Role) (uni : Bool) {session : Nat} (hs : session < 2 ^ 62) {pre : Bytes}
    (hp : wtPreface uni session = some pre) (rest : Bytes) :
    Spec.head role (!uni) (pre ++ rest) = .kind (.webTransport session) rest := by
  obtain ⟨t, i, h1, h2, h3, _⟩ := wtPreface_spec hs uni
  rw [hp] at h1; cases h1
  unfold Spec.head
  rw [List.append_assoc, h2]
  simp only [wtMeaning, h3]

theorem headAndEnd_preface (role : Role) (uni : Bool) {session : Nat} (hs : session < 2 ^ 62) {pre : Bytes}
    (hp : wtPreface uni session = some pre) (rest : Bytes) :
    Spec.headAndEnd role (!uni) (pre ++ rest) =
      if rest = [] then .failed .generalProtocol else .kind (.webTransport session) rest := by
  obtain ⟨t, i, h1, h2, h3, _⟩ := wtPreface_spec hs uni
  rw [hp] at h1; cases h1
  unfold Spec.headAndEnd
  rw [List.append_assoc, h2]
  simp only [wtMeaning, h3]

theorem head_part (role : Role) (uni : Bool) {session : Nat} (hs : session < 2 ^ 62) {p q : Bytes}
    (hp : wtPreface uni session = some (p ++ q)) (hq : q ≠ []) : Spec.head role (!uni) p = .wait := by
  obtain ⟨t, i, h1, h2, h3, _⟩ := wtPreface_spec hs uni
  rw [hp] at h1
  injection h1 with h1
  unfold Spec.head
  cases hd : decodeVarint p with
  | none => rfl
  | some x =>
    obtain ⟨v, r⟩ := x
    have e1 := decodeVarint_append (more := q) hd
    rw [h1, h2] at e1
    injection e1 with e1
    injection e1 with e1 e2
    simp only
    rw [← e1, wtMeaning]
    simp only
    cases hd2 : decodeVarint r with
    | none => rfl
    | some y =>
      obtain ⟨id, r2⟩ := y
      have e3 := decodeVarint_append (more := q) hd2
      have e4 := h3 []
      rw [List.append_nil, e2, e3] at e4
      injection e4 with e4
      injection e4 with e4 e5
      exact absurd (List.append_eq_nil_iff.mp e5).2 hq

theorem preface_ne {session : Nat} (hs : session < 2 ^ 62) {uni : Bool} {pre : Bytes}
    (hp : wtPreface uni session = some pre) : pre ≠ [] := by
  obtain ⟨t, i, h1, _, _, h4⟩ := wtPreface_spec hs uni
  rw [hp] at h1
  injection h1 with h1
  rw [h1]
  intro h
  exact h4 (List.append_eq_nil_iff.mp h).2

/-! ## C107 -/

/-- C107: whatever the application and the transport do, the stream carries the preface
and then exactly the data that were accepted, or a part of the preface while none have
been; if the stream is closed, that is all of it, and the application has closed it. -/
theorem C107_stream_carries_what_was_accepted (server uni : Bool) {session : Nat} (hs : session < 2 ^ 62) {pre : Bytes}
    (hp : wtPreface uni session = some pre) (ops : List WtOp) {h : WtHandle} {log : List (WtOp × WtRes)}
    (hr : (WtHandle.new server uni pre).run ops = (h, log)) :
    (h.s.out = pre ++ wtAccepted log ∨ wtAccepted log = [] ∧ h.s.out <+: pre) ∧
    (h.s.closed = true → h.s.out = pre ++ wtAccepted log ∧ wtClosed log = true) := by
  obtain ⟨hi, _⟩ := wtInv_run ops (wtInv_new server uni (preface_ne hs hp))
  rw [hr] at hi
  simp only [List.nil_append, Bool.false_or] at hi
  unfold WtInv at hi
  cases hst : h.s.st with
  | init buf fin =>
    simp only [hst] at hi
    refine ⟨.inr ⟨hi.2.2.2.1, ⟨buf, hi.2.2.1⟩⟩, fun hc => ?_⟩
    rw [hi.2.2.2.2.2.1] at hc; cases hc
  | sending =>
    simp only [hst] at hi
    refine ⟨.inl hi.2.2.2, fun hc => ?_⟩
    rw [hi.2.2.1] at hc; cases hc
  | done =>
    simp only [hst] at hi
    refine ⟨?_, fun hc => ⟨?_, hi.2.1 hc⟩⟩
    · rcases hi.1 with h1 | ⟨h1, h2, _⟩
      · exact .inl h1
      · exact .inr ⟨h1, h2⟩
    · rcases hi.1 with h1 | ⟨h1, h2, h3⟩
      · exact h1
      · rw [hc] at h3; cases h3

/-- C107: nothing is accepted after the application has closed the stream. -/
theorem C107_nothing_after_close (server uni : Bool) {session : Nat} (hs : session < 2 ^ 62) {pre : Bytes}
    (hp : wtPreface uni session = some pre) (before after : List WtOp) (tx : Tx) :
    wtAccepted ((WtHandle.new server uni pre).run (before ++ .close tx :: after)).2 =
      wtAccepted ((WtHandle.new server uni pre).run before).2 := by
  obtain ⟨hi, _⟩ := wtInv_run before (wtInv_new server uni (preface_ne hs hp))
  rw [wtRun_append]
  simp only
  rw [wtAccepted_append]
  generalize (WtHandle.new server uni pre).run before = x at *
  obtain ⟨h, log⟩ := x
  simp only at hi ⊢
  obtain ⟨h1, _, h3⟩ := wtInv_step hi (.close tx)
  obtain ⟨_, g2, g3⟩ := wtInv_run after h1
  have e : h.run (.close tx :: after) =
    (((h.step (.close tx)).1.run after).1, (.close tx, (h.step (.close tx)).2) :: ((h.step (.close tx)).1.run after).2) := rfl
  rw [e]
  simp only
  rw [wtAccepted_cons, show ∀ r, wtAccepted [(WtOp.close tx, r)] = [] by intro r; cases r <;> rfl]
  have : wtAccepted ((h.step (.close tx)).1.run after).2 = [] := by
    cases hpr : h.present with
    | false => exact g3 (h3 hpr).2
    | true =>
      apply g2
      have : (h.step (.close tx)).2 = .ok := by
        simp only [WtHandle.step, WtHandle.close, hpr, Bool.not_true, Bool.false_eq_true, if_false]
        split <;> rfl
      rw [this]
      simp [closesWt]
  rw [this]
  simp

theorem process_done {h : WtHandle} (hd : h.s.st = .done) (tx : Tx) : (h.step (.process tx)).1.s = h.s := by
  have hs : h.s.send tx = (h.s, none) := wtSend_other (fun b f => by rw [hd]; exact (fun h => by cases h)) tx
  simp only [WtHandle.step, WtHandle.process]
  split
  · rfl
  · split
    · rfl
    · rw [hs]

theorem processes_done (txs : List Tx) : ∀ {h : WtHandle}, h.s.st = .done → (h.run (txs.map .process)).1.s = h.s := by
  induction txs with
  | nil => intro h _; rfl
  | cons tx txs ih =>
    intro h hd
    have e := process_done hd tx
    show ((h.step (.process tx)).1.run (txs.map .process)).1.s = h.s
    rw [ih (by rw [e]; exact hd), e]

theorem processes_close : ∀ (txs : List Tx) {h : WtHandle} {buf : Bytes}, h.s.st = .init buf true → buf ≠ [] →
    h.s.closed = false → h.present = true → h.pending = true → (∀ tx ∈ txs, Tx.Works tx) → buf.length ≤ txs.length →
    (h.run (txs.map .process)).1.s.closed = true
  | [], h, buf, _, h2, _, _, _, _, h6 => by
    have := List.length_pos_iff.mpr h2
    rw [List.length_nil] at h6; omega
  | tx :: txs, h, buf, h1, h2, h3, h4, h4', h5, h6 => by
    have hw := h5 tx (List.mem_cons_self ..)
    have h5' : ∀ tx ∈ txs, Tx.Works tx := fun tx h => h5 tx (List.mem_cons_of_mem _ h)
    show ((h.step (.process tx)).1.run (txs.map .process)).1.s.closed = true
    rcases wtSend_cases h1 h2 h3 tx with ⟨e, _, q⟩ | ⟨n, q1, q2, q⟩ | ⟨c, _, _, q⟩
    · exact absurd hw q
    · have e : (h.step (.process tx)).1 = { h with s := { h.s with out := h.s.out ++ buf.take n, st := .init (buf.drop n) true }, pending := true } := by
        simp only [WtHandle.step, WtHandle.process, h4, h4', Bool.not_true, Bool.false_eq_true, if_false, q]
        simp [WtSend.hasData]
      rw [e]
      have hn := q2 hw
      refine processes_close txs (buf := buf.drop n) rfl ?_ h3 h4 rfl h5' ?_
      · intro h0
        have := congrArg List.length h0
        rw [List.length_drop, List.length_nil] at this
        omega
      · rw [List.length_drop]
        rw [List.length_cons] at h6
        omega
    · have e : (h.step (.process tx)).1.s = { h.s with out := h.s.out ++ buf, committed := c, closed := true, st := .done, ended := h.s.ended + 1 } := by
        simp only [WtHandle.step, WtHandle.process, h4, h4', Bool.not_true, Bool.false_eq_true, if_false, q, if_true]
      rw [processes_done txs (by rw [e]), e]

/-- C107: once the application has closed a stream it still has, the stream is closed
with everything that was accepted on it, without further calls of the application:
at once if the preface has been sent, and otherwise as soon as the transport has
taken it, which takes no more than as many rounds as the preface has bytes. -/
theorem C107_close_is_carried_out (server uni : Bool) {session : Nat} (hs : session < 2 ^ 62) {pre : Bytes}
    (hp : wtPreface uni session = some pre) (ops : List WtOp) {h : WtHandle} {log : List (WtOp × WtRes)}
    (hr : (WtHandle.new server uni pre).run ops = (h, log)) (hpr : h.present = true)
    (hup : ∀ tx e, (WtOp.process tx, WtRes.failed e) ∉ log) {tx : Tx} (htx : tx.known = true ∧ tx.takes = true)
    {txs : List Tx} (htxs : ∀ tx ∈ txs, Tx.Works tx) (hl : pre.length ≤ txs.length) :
    let s := ((WtHandle.new server uni pre).run (ops ++ .close tx :: txs.map .process)).1.s
    s.closed = true ∧ s.out = pre ++ wtAccepted log := by
  have hclosed : ((WtHandle.new server uni pre).run (ops ++ .close tx :: txs.map .process)).1.s.closed = true := by
    obtain ⟨hi, _⟩ := wtInv_run ops (wtInv_new server uni (preface_ne hs hp))
    rw [hr] at hi
    simp only [List.nil_append, Bool.false_or] at hi
    rw [wtRun_append, hr]
    show (((h.step (.close tx)).1).run (txs.map .process)).1.s.closed = true
    have hhealthy : healthyWt log = true := by
      unfold healthyWt
      rw [List.all_eq_true]
      rintro ⟨op, r⟩ hm
      cases op <;> cases r <;> try rfl
      exact absurd hm (hup _ _)
    rw [hhealthy, Bool.and_true] at hi
    unfold WtInv at hi
    obtain ⟨k1, k2⟩ := htx
    cases hst : h.s.st with
    | init buf fin =>
      simp only [hst] at hi
      obtain ⟨i1, i2, i3, i4, i5, i6, i7⟩ := hi
      have e : (h.step (.close tx)).1 = { h with s := { h.s with st := .init buf true }, pending := true } := by
        simp [WtHandle.step, WtHandle.close, hpr, WtSend.close, hst, WtSend.hasData]
      rw [e]
      have : buf.length ≤ pre.length := by rw [← i3, List.length_append]; omega
      exact processes_close txs (buf := buf) rfl i2 i6 hpr rfl htxs (by omega)
    | sending =>
      have e : (h.step (.close tx)).1.s = { h.s with st := .done, closed := true, ended := h.s.ended + 1 } := by
        simp [WtHandle.step, WtHandle.close, hpr, WtSend.close, hst, WtSend.streamClose, k1, k2, WtSend.setDone]
      rw [processes_done txs (by rw [e]), e]
    | done =>
      have e : (h.step (.close tx)).1.s = { h.s with st := .done, closed := true, ended := h.s.ended + 1 } := by
        simp [WtHandle.step, WtHandle.close, hpr, WtSend.close, hst, WtSend.streamClose, k1, k2, WtSend.setDone]
      rw [processes_done txs (by rw [e]), e]
  refine ⟨hclosed, ?_⟩
  have h1 := (C107_stream_carries_what_was_accepted server uni hs hp (ops ++ .close tx :: txs.map .process) rfl).2 hclosed
  rw [C107_nothing_after_close server uni hs hp, hr] at h1
  exact h1.1

/-- C107: the peer, however the stream arrives in pieces, waits while it has less than
the preface, and then knows the session, and gets a prefix of what was accepted. -/
theorem C107_peer_gets_session_and_data (server uni : Bool) {session : Nat} (hs : session < 2 ^ 62) {pre : Bytes}
    (hp : wtPreface uni session = some pre) (ops : List WtOp) {h : WtHandle} {log : List (WtOp × WtRes)}
    (hr : (WtHandle.new server uni pre).run ops = (h, log)) (role : Role) (pieces : List Bytes)
    (harr : pieces.flatten <+: h.s.out) :
    ((Head.feed role (!uni) (.readType {}) pieces false).outcome = .wait ∧ pieces.flatten.length < pre.length) ∨
    ∃ data, (Head.feed role (!uni) (.readType {}) pieces false).outcome = .kind (.webTransport session) data ∧
      data <+: wtAccepted log := by
  rw [C70_head]
  obtain ⟨hw, _⟩ := C107_stream_carries_what_was_accepted server uni hs hp ops hr
  have hpre : pieces.flatten <+: pre ++ wtAccepted log := by
    rcases hw with hw | ⟨_, hw⟩
    · rw [← hw]; exact harr
    · exact (harr.trans hw).trans (List.prefix_append ..)
  by_cases hlt : pieces.flatten.length < pre.length
  · left
    refine ⟨?_, hlt⟩
    obtain ⟨q, hq⟩ := List.prefix_of_prefix_length_le hpre (List.prefix_append pre _) (by omega)
    refine head_part role uni hs (by rw [hp, hq]) ?_
    rintro rfl
    rw [List.append_nil] at hq
    rw [hq] at hlt; omega
  · right
    obtain ⟨q, hq⟩ := List.prefix_of_prefix_length_le (List.prefix_append pre (wtAccepted log)) hpre (by omega)
    rw [← hq] at hpre ⊢
    refine ⟨q, head_preface role uni hs hp q, ?_⟩
    exact (List.prefix_append_right_inj pre).mp hpre

/-- C107: when the end of the stream has arrived too, and there were data, the peer has
all of them.  (In full, also if there were none: see `C107_empty_stream_closes_connection`.) -/
theorem C107_end_means_all_partial (server uni : Bool) {session : Nat} (hs : session < 2 ^ 62) {pre : Bytes}
    (hp : wtPreface uni session = some pre) (ops : List WtOp) {h : WtHandle} {log : List (WtOp × WtRes)}
    (hr : (WtHandle.new server uni pre).run ops = (h, log)) (hc : h.s.closed = true) (role : Role) (pieces : List Bytes)
    (last : Bytes) (harr : (pieces ++ [last]).flatten = h.s.out)
    (hd : wtAccepted log ≠ [] ∨ pieces.flatten.length ≥ pre.length) :
    (Head.feed role (!uni) (.readType {}) (pieces ++ [last]) true).outcome =
      .kind (.webTransport session) (wtAccepted log) ∧ wtClosed log = true := by
  obtain ⟨_, hw⟩ := C107_stream_carries_what_was_accepted server uni hs hp ops hr
  obtain ⟨hw, hcl⟩ := hw hc
  refine ⟨?_, hcl⟩
  by_cases hwait : Spec.head role (!uni) pieces.flatten = .wait
  · rw [C70_end_partial role _ pieces last hwait, harr, hw, headAndEnd_preface role uni hs hp, if_neg]
    rcases hd with hd | hd
    · exact hd
    · exfalso
      have h1 : pieces.flatten <+: pre ++ wtAccepted log := by
        rw [← hw, ← harr, List.flatten_append]; exact List.prefix_append ..
      obtain ⟨q, hq⟩ := List.prefix_of_prefix_length_le (List.prefix_append pre (wtAccepted log)) h1 hd
      rw [← hq, head_preface role uni hs hp] at hwait
      cases hwait
  · rw [C70_end_after_head role _ pieces last hwait, harr, hw, head_preface role uni hs hp]

/-- C107 (negation): a stream that is opened and closed without data, whose preface and
end arrive together, makes the peer close the connection: any session, either kind of
stream, either end. -/
theorem C107_empty_stream_closes_connection (server uni : Bool) {session : Nat} (hs : session < 2 ^ 62) {pre : Bytes}
    (hp : wtPreface uni session = some pre) (role : Role) :
    ∃ ops h log, (WtHandle.new server uni pre).run ops = (h, log) ∧ h.s.closed = true ∧ h.s.out = pre ∧
      wtAccepted log = [] ∧
      (Head.feed role (!uni) (.readType {}) [h.s.out] true).outcome = .failed .generalProtocol := by
  have hcl := C107_close_is_carried_out server uni hs hp [] (h := WtHandle.new server uni pre) (log := []) rfl rfl
    (fun _ _ h => by cases h) (tx := ⟨1, true, true, true⟩) ⟨rfl, rfl⟩ (txs := List.replicate pre.length ⟨1, true, true, true⟩)
    (fun tx h => by rw [List.eq_of_mem_replicate h]; exact ⟨rfl, rfl, Nat.one_pos⟩) (by simp)
  obtain ⟨h1, h2⟩ := hcl
  rw [show wtAccepted ([] : List (WtOp × WtRes)) = [] from rfl, List.append_nil] at h2
  refine ⟨_, _, _, rfl, h1, h2, ?_, ?_⟩
  · exact C107_nothing_after_close server uni hs hp [] _ _
  · rw [h2]
    have := C70_end_partial role (!uni) [] pre rfl
    rw [show ([] : List Bytes) ++ [pre] = [pre] from rfl] at this
    rw [this]
    have e := headAndEnd_preface role uni hs hp []
    rw [if_pos rfl, List.append_nil] at e
    simpa using e

/-! ## Resets -/

/-- How much is committed. -/
def RelInv (pre acc : Bytes) (h : WtHandle) : Prop :=
  h.s.committed ≤ h.s.out.length ∧
  match h.s.st with
  | .init _ _ => True
  | .sending => pre.length ≤ h.s.committed
  | .done => acc = [] ∨ pre.length ≤ h.s.committed

/-- The peer supports reliable resets. -/
def WtOp.Reliable : WtOp → Prop
  | .write _ tx tx' => tx.reliable = true ∧ tx'.reliable = true
  | .close tx => tx.reliable = true
  | .commit tx => tx.reliable = true
  | .process tx => tx.reliable = true
  | .stop => True

theorem rel_send {pre acc : Bytes} {cl ok : Bool} {h : WtHandle} (hi : WtInv pre acc cl ok h) (hc : RelInv pre acc h)
    (tx : Tx) (htx : tx.reliable = true) {s' : WtSend} {o : Option WtErr} (hs : h.s.send tx = (s', o)) (p q : Bool) :
    RelInv pre acc { h with s := s', present := p, pending := q } := by
  by_cases hst : ∃ buf fin, h.s.st = .init buf fin
  · obtain ⟨buf, fin, hst⟩ := hst
    unfold WtInv at hi
    rw [hst] at hi
    obtain ⟨i1, i2, i3, i4, i5, i6, i7⟩ := hi
    obtain ⟨c1, c2⟩ := hc
    rcases wtSend_cases hst i2 i6 tx with ⟨e, g, _⟩ | ⟨n, g1, _, g⟩ | ⟨c, g1, _, g⟩
    · rw [g] at hs; cases hs
      exact ⟨c1, c2⟩
    · rw [g] at hs; cases hs
      refine ⟨?_, trivial⟩
      show h.s.committed ≤ (h.s.out ++ buf.take n).length
      rw [List.length_append]; omega
    · rw [g] at hs; cases hs
      have g1 := g1 htx
      rw [i3] at g1
      cases fin with
      | false => exact ⟨by show c ≤ (h.s.out ++ buf).length; rw [i3]; omega, by show pre.length ≤ c; omega⟩
      | true => exact ⟨by show c ≤ (h.s.out ++ buf).length; rw [i3]; omega, .inl i4⟩
  · rw [wtSend_other (fun b f hb => hst ⟨b, f, hb⟩)] at hs
    cases hs
    exact hc

theorem rel_step {pre acc : Bytes} {cl ok : Bool} {h : WtHandle} (hi : WtInv pre acc cl ok h) (hc : RelInv pre acc h)
    (op : WtOp) (hop : op.Reliable) : RelInv pre (acc ++ wtAccepted [(op, (h.step op).2)]) (h.step op).1 := by
  cases op with
  | write data tx tx' =>
    simp only [WtHandle.step, WtHandle.write]
    cases hp : h.present with
    | false => simpa [wtAccepted] using hc
    | true =>
      simp only [Bool.not_true, Bool.false_eq_true, if_false, WtSend.sendData]
      cases hs : h.s.send tx with
      | mk s' o =>
        have h1 := fun p q => rel_send hi hc tx hop.1 hs p q
        cases o with
        | some e => simpa [wtAccepted] using h1 true h.pending
        | none =>
          simp only
          by_cases hse : s'.st = .sending
          · rw [if_pos hse]
            unfold WtSend.streamSend
            by_cases hk : tx'.known = true
            · rw [if_neg (by simp [hk])]
              by_cases hd : data = []
              · rw [if_pos hd]; simpa [wtAccepted] using h1 true h.pending
              · rw [if_neg hd]
                by_cases ht : (!tx'.takes || s'.closed) = true
                · rw [if_pos ht]; simpa [wtAccepted] using h1 true h.pending
                · rw [if_neg ht]
                  have h2 := h1 true h.pending
                  unfold RelInv at h2 ⊢
                  simp only [hse] at h2 ⊢
                  exact ⟨by rw [List.length_append]; omega, h2.2⟩
            · rw [if_pos (by simpa using hk)]
              simpa [wtAccepted] using h1 true h.pending
          · rw [if_neg hse]
            simpa [wtAccepted] using h1 true h.pending
  | close tx =>
    have hacc : ∀ r, wtAccepted [(WtOp.close tx, r)] = [] := by intro r; cases r <;> rfl
    rw [hacc, List.append_nil]
    simp only [WtHandle.step, WtHandle.close]
    cases hp : h.present with
    | false => simpa using hc
    | true =>
      simp only [Bool.not_true, Bool.false_eq_true, if_false]
      obtain ⟨c1, c2⟩ := hc
      cases hst : h.s.st with
      | init buf fin =>
        have hcl : h.s.close tx = { h.s with st := .init buf true } := by unfold WtSend.close; rw [hst]
        rw [hcl, if_neg (by simp)]
        exact ⟨c1, trivial⟩
      | sending | done =>
        have hcl : h.s.close tx = { h.s with st := .done, closed := (h.s.close tx).closed, ended := (h.s.close tx).ended } := by
          unfold WtSend.close
          rw [hst]
          simp only [WtSend.streamClose]
          by_cases hk : tx.known = true
          · rw [if_neg (by simp [hk])]
            by_cases ht : tx.takes = true
            · rw [if_neg (by simp [ht])]; rfl
            · rw [if_pos (by simpa using ht)]; rfl
          · rw [if_pos (by simpa using hk)]
        generalize (h.s.close tx).closed = c at hcl
        generalize (h.s.close tx).ended = n at hcl
        rw [hcl, if_pos rfl]
        rw [hst] at c2
        first | exact ⟨c1, .inr c2⟩ | exact ⟨c1, c2⟩
  | commit tx =>
    have hacc : ∀ r, wtAccepted [(WtOp.commit tx, r)] = [] := by intro r; cases r <;> rfl
    rw [hacc, List.append_nil]
    simp only [WtHandle.step, WtHandle.commit]
    cases hp : h.present with
    | false => simpa using hc
    | true =>
      simp only [Bool.not_true, Bool.false_eq_true, if_false, WtSend.commit]
      cases hs : h.s.send tx with
      | mk s' o =>
        have h1 := rel_send hi hc tx hop hs true h.pending
        obtain ⟨g1, _⟩ := wtInv_send hi hp tx hs
        cases o with
        | some e => exact h1
        | none =>
          simp only
          by_cases hse : s'.st = .sending
          · rw [if_pos hse]
            rcases streamCommit_cases s' tx with ⟨e, q⟩ | q <;> rw [q]
            · exact h1
            · unfold RelInv at h1 ⊢
              unfold WtInv at g1
              simp only [hse] at h1 g1 ⊢
              exact ⟨Nat.le_refl _, by rw [g1.2.2.2, List.length_append]; omega⟩
          · rw [if_neg hse]
            exact h1
  | process tx =>
    have hacc : ∀ r, wtAccepted [(WtOp.process tx, r)] = [] := by intro r; cases r <;> rfl
    rw [hacc, List.append_nil]
    simp only [WtHandle.step, WtHandle.process]
    split
    · exact hc
    · split
      · exact hc
      · cases hs : h.s.send tx with
        | mk s' o =>
          cases o with
          | some e => exact rel_send hi hc tx hop hs h.present false
          | none => exact rel_send hi hc tx hop hs _ _
  | stop =>
    have hacc : ∀ r, wtAccepted [(WtOp.stop, r)] = [] := by intro r; cases r <;> rfl
    rw [hacc, List.append_nil]
    simp only [WtHandle.step, WtHandle.stop]
    split
    · obtain ⟨c1, c2⟩ := hc
      unfold WtInv at hi
      cases hst : h.s.st with
      | init buf fin => simp only [hst] at hi; exact ⟨c1, .inl hi.2.2.2.1⟩
      | sending => simp only [hst] at c2; exact ⟨c1, .inr c2⟩
      | done => simp only [hst] at c2; exact ⟨c1, c2⟩
    · exact hc

theorem rel_run {pre : Bytes} : ∀ (ops : List WtOp) {acc : Bytes} {cl ok : Bool} {h : WtHandle},
    WtInv pre acc cl ok h → RelInv pre acc h → (∀ op ∈ ops, op.Reliable) →
    RelInv pre (acc ++ wtAccepted (h.run ops).2) (h.run ops).1
  | [], acc, _, _, h, _, hc, _ => by simpa [WtHandle.run, wtAccepted] using hc
  | op :: ops, acc, cl, ok, h, hi, hc, hops => by
    have e : h.run (op :: ops) = (((h.step op).1.run ops).1, (op, (h.step op).2) :: ((h.step op).1.run ops).2) := rfl
    rw [e]
    simp only
    rw [wtAccepted_cons, ← List.append_assoc]
    exact rel_run ops (wtInv_step hi op).1 (rel_step hi hc op (hops _ (List.mem_cons_self ..)))
      (fun o ho => hops o (List.mem_cons_of_mem _ ho))

/-- C107: when the peer supports reliable resets and data have been accepted, then what is
delivered even if the stream is reset begins with the preface: the peer can tell to
which session the stream belonged. -/
theorem C107_reset_keeps_session (server uni : Bool) {session : Nat} (hs : session < 2 ^ 62) {pre : Bytes}
    (hp : wtPreface uni session = some pre) (ops : List WtOp) (hops : ∀ op ∈ ops, op.Reliable)
    {h : WtHandle} {log : List (WtOp × WtRes)} (hr : (WtHandle.new server uni pre).run ops = (h, log))
    (hd : wtAccepted log ≠ []) :
    h.s.committed ≤ h.s.out.length ∧ ∃ n, h.s.out.take h.s.committed = pre ++ (wtAccepted log).take n := by
  have hinv := wtInv_new server uni (preface_ne hs hp)
  obtain ⟨hi, _⟩ := wtInv_run ops hinv
  have hc := rel_run ops hinv ⟨Nat.le_refl _, trivial⟩ hops
  obtain ⟨hw, _⟩ := C107_stream_carries_what_was_accepted server uni hs hp ops hr
  rw [hr] at hi hc
  simp only [List.nil_append] at hi hc
  obtain ⟨c1, c2⟩ := hc
  have hout : h.s.out = pre ++ wtAccepted log := by
    rcases hw with hw | hw
    · exact hw
    · exact absurd hw.1 hd
  have hle : pre.length ≤ h.s.committed := by
    unfold WtInv at hi
    cases hst : h.s.st with
    | init buf fin => simp only [hst] at hi; exact absurd hi.2.2.2.1 hd
    | sending => simp only [hst] at c2; exact c2
    | done =>
      simp only [hst] at c2
      rcases c2 with c2 | c2
      · exact absurd c2 hd
      · exact c2
  refine ⟨c1, h.s.committed - pre.length, ?_⟩
  rw [hout, List.take_append, List.take_of_length_le hle]

/-- C107: a commitment that succeeds covers all that was accepted before it. -/
theorem C107_commit_covers_all (server uni : Bool) {session : Nat} (hs : session < 2 ^ 62) {pre : Bytes}
    (hp : wtPreface uni session = some pre) (ops : List WtOp)
    {h : WtHandle} {log : List (WtOp × WtRes)} (hr : (WtHandle.new server uni pre).run ops = (h, log)) (tx : Tx)
    (hok : (h.step (.commit tx)).2 = .ok) :
    let s := (h.step (.commit tx)).1.s
    s.out.take s.committed = pre ++ wtAccepted log := by
  obtain ⟨hi, _⟩ := wtInv_run ops (wtInv_new server uni (preface_ne hs hp))
  rw [hr] at hi
  simp only [List.nil_append] at hi
  simp only [WtHandle.step, WtHandle.commit] at hok ⊢
  cases hpr : h.present with
  | false => rw [hpr] at hok; cases hok
  | true =>
    rw [hpr] at hok
    simp only [Bool.not_true, Bool.false_eq_true, if_false, WtSend.commit] at hok ⊢
    cases hsend : h.s.send tx with
    | mk s' o =>
      rw [hsend] at hok
      obtain ⟨g1, _⟩ := wtInv_send hi hpr tx hsend
      cases o with
      | some e => cases hok
      | none =>
        simp only at hok ⊢
        by_cases hse : s'.st = .sending
        · rw [if_pos hse] at hok ⊢
          rcases streamCommit_cases s' tx with ⟨e, q⟩ | q <;> rw [q] at hok ⊢
          · cases hok
          · unfold WtInv at g1
            simp only [hse] at g1
            show s'.out.take s'.out.length = _
            rw [List.take_of_length_le (Nat.le_refl _), g1.2.2.2]
        · rw [if_neg hse] at hok; cases hok

/-- C107, over any network: on stream `k` between the two endpoints, whatever is lost,
delayed or repeated, the peer reads the session and a prefix of what was accepted, and
all of it when the end comes after data. -/
theorem C107_over_any_network_partial (server uni : Bool) {session : Nat} (hs : session < 2 ^ 62) {pre : Bytes}
    (hp : wtPreface uni session = some pre) (ops : List WtOp) {h : WtHandle} {log : List (WtOp × WtRes)}
    (hr : (WtHandle.new server uni pre).run ops = (h, log)) {s : E2E.Sys} (hreach : E2E.Reached s) {k : Nat}
    (hwritten : s.written k = h.s.out) (hclosed : s.closed k = h.s.closed) (role : Role) (pieces : List Bytes)
    (last : Bytes) (hread : (pieces ++ [last]).flatten = s.read k) :
    (((Head.feed role (!uni) (.readType {}) (pieces ++ [last]) false).outcome = .wait ∧ (s.read k).length < pre.length) ∨
      ∃ data, (Head.feed role (!uni) (.readType {}) (pieces ++ [last]) false).outcome = .kind (.webTransport session) data ∧
        data <+: wtAccepted log) ∧
    (s.sawFin k → wtAccepted log ≠ [] →
      (Head.feed role (!uni) (.readType {}) (pieces ++ [last]) true).outcome =
        .kind (.webTransport session) (wtAccepted log) ∧ wtClosed log = true) := by
  have hpre := E2E.C94_read_is_prefix_of_written hreach k
  rw [hwritten, ← hread] at hpre
  refine ⟨?_, fun hf hd => ?_⟩
  · rw [← hread]
    exact C107_peer_gets_session_and_data server uni hs hp ops hr role _ hpre
  · obtain ⟨q1, q2⟩ := E2E.C94_fin_means_everything_read hreach hf
    exact C107_end_means_all_partial server uni hs hp ops hr (by rw [← hclosed]; exact q1) role pieces last
      (by rw [hread, q2, hwritten]) (.inl hd)

/-! ## C108 -/

theorem wtHeaderLen_eq {session : Nat} (hs : session < 2 ^ 62) {uni : Bool} {pre : Bytes}
    (hp : wtPreface uni session = some pre) : wtHeaderLen uni session = some pre.length := by
  obtain ⟨t, ht, _⟩ := encodeVarint_decode (v := if uni then 0x54 else 0x41) (by cases uni <;> decide)
  obtain ⟨i, hi, _⟩ := encodeVarint_decode hs
  have h1 : wtPreface uni session = some (t ++ i) := by simp [wtPreface, ht, hi]
  rw [hp] at h1
  injection h1 with h1
  have e1 := encodeVarint_length (if uni then 0x54 else 0x41)
  have e2 := encodeVarint_length session
  rw [ht] at e1
  rw [hi] at e2
  simp only [wtHeaderLen, ← e1, ← e2, h1]
  simp

/-- C108: at a client, the number of bytes reported for a stream it opened, of which the
transport has `n` bytes written, sent or acknowledged, is the number of the application's
bytes among them. -/
theorem C108_client_opened (uni : Bool) {session : Nat} (hs : session < 2 ^ 62) {pre : Bytes}
    (hp : wtPreface uni session = some pre) (ops : List WtOp) {h : WtHandle} {log : List (WtOp × WtRes)}
    (hr : (WtHandle.new false uni pre).run ops = (h, log)) (n : Nat) (hn : n ≤ h.s.out.length) :
    wtSendCount true uni session n = some ((h.s.out.take n).drop pre.length).length ∧
    wtSendCount true uni session h.s.out.length = some (wtAccepted log).length := by
  obtain ⟨hw, _⟩ := C107_stream_carries_what_was_accepted false uni hs hp ops hr
  simp only [wtSendCount, wtHeaderLen_eq hs hp]
  refine ⟨?_, ?_⟩
  · rw [List.length_drop, List.length_take, Nat.min_eq_left hn]; rfl
  · rcases hw with hw | ⟨hw, hq⟩
    · rw [hw, List.length_append]; simp
    · have := hq.length_le
      rw [hw]; simp; omega

/-- C108: at a client, a stream the server opened: nothing but the application's bytes go
out on it, and of the bytes that have come in on it (`n`, with the preface) the
application's are counted. -/
theorem C108_server_opened (uni : Bool) {session : Nat} (hs : session < 2 ^ 62) {pre : Bytes}
    (hp : wtPreface uni session = some pre) (data : Bytes) (n : Nat) (hn : n ≤ (pre ++ data).length) (m : Nat) :
    wtRecvCount false uni session n = some (((pre ++ data).take n).drop pre.length).length ∧
    wtSendCount false uni session m = some m ∧ wtRecvCount true uni session m = some m := by
  simp only [wtSendCount, wtRecvCount, wtHeaderLen_eq hs hp]
  refine ⟨?_, rfl, rfl⟩
  rw [List.length_drop, List.length_take, Nat.min_eq_left hn]; rfl

/-- C108: the counts hold at a client only, which is where they can be asked for (`ClientSession`,
webtransport.rs:110-117); the same functions would be wrong at a server.  On a stream it opened, the preface
would be counted as data sent; on a stream the client opened, it would be counted as data received,
and what the server sends on it is reported as less than it is; so is what it
receives on a bidirectional stream it opened. -/
theorem C108_only_at_a_client (uni : Bool) {session : Nat} (hs : session < 2 ^ 62) {pre : Bytes}
    (hp : wtPreface uni session = some pre) :
    (∀ ops h log, (WtHandle.new true uni pre).run ops = (h, log) → wtAccepted log ≠ [] →
      wtSendCount false uni session h.s.out.length ≠ some (wtAccepted log).length) ∧
    (∀ data : Bytes, wtRecvCount true uni session (pre ++ data).length ≠ some data.length) ∧
    (∀ data : Bytes, data ≠ [] → wtSendCount true uni session data.length ≠ some data.length) ∧
    (∀ data : Bytes, data ≠ [] → wtRecvCount false uni session data.length ≠ some data.length) := by
  have hl := List.length_pos_iff.mpr (preface_ne hs hp)
  simp only [wtSendCount, wtRecvCount, wtHeaderLen_eq hs hp]
  refine ⟨fun ops h log hr hd => ?_, fun data => ?_, fun data hd => ?_, fun data hd => ?_⟩
  · obtain ⟨hw, _⟩ := C107_stream_carries_what_was_accepted true uni hs hp ops hr
    rcases hw with hw | ⟨hw, _⟩
    · rw [hw, List.length_append]; simp; exact preface_ne hs hp
    · exact absurd hw hd
  · rw [List.length_append]; simp; exact preface_ne hs hp
  · have := List.length_pos_iff.mpr hd
    simp; omega
  · have := List.length_pos_iff.mpr hd
    simp; omega

/-! ## Examples -/

def wtPre : Bytes := [0x40, 0x41, 0x04]

/-- A bidirectional stream of session 4: part of the preface goes with a write of which
nothing is accepted, data are accepted in two parts, a commitment, the end. -/
def wtOps : List WtOp :=
  [.write [1, 2, 3] ⟨2, true, true, true⟩ ⟨0, true, true, true⟩, .write [1, 2, 3] ⟨9, true, true, true⟩ ⟨2, true, true, true⟩,
   .commit ⟨0, true, true, true⟩, .process ⟨9, true, true, true⟩, .write [3] ⟨0, true, true, true⟩ ⟨5, true, true, true⟩,
   .close ⟨0, true, true, true⟩]

example : wtPreface false 4 = some wtPre := by decide +kernel

example :
    let r := (WtHandle.new false false wtPre).run wtOps
    r.1.s.out = wtPre ++ [1, 2, 3] ∧ r.1.s.closed = true ∧ wtAccepted r.2 = [1, 2, 3] ∧ wtClosed r.2 = true ∧
      r.1.s.committed = 5 ∧ r.1.present = false := by decide +kernel

/-- The hypotheses of the theorems on the peer, the end, resets and commitments. -/
example :
    let r := (WtHandle.new false false wtPre).run wtOps
    ([[0x40], [0x41, 0x04, 1]] : List Bytes).flatten <+: r.1.s.out ∧
      (([[0x40], [0x41, 0x04, 1], []] : List Bytes) ++ [[2, 3]]).flatten = r.1.s.out := by decide +kernel

example : ∀ op ∈ wtOps, op.Reliable := by
  intro op h
  simp only [wtOps, List.mem_cons, List.not_mem_nil, or_false] at h
  rcases h with rfl | rfl | rfl | rfl | rfl | rfl <;> first | exact rfl | exact ⟨rfl, rfl⟩

example : (((WtHandle.new false false wtPre).run (wtOps.take 2)).1.step (.commit ⟨0, true, true, true⟩)).2 = .ok := by
  decide +kernel

/-- A stream that is closed while the transport has taken nothing; it is stuck for a while,
and then the preface and the end go. -/
example :
    let h := ((WtHandle.new true true [0x40, 0x54, 0x04]).run [.write [7] ⟨0, true, true, true⟩ ⟨9, true, true, true⟩]).1
    h.present = true ∧
    ((h.run [.close ⟨0, true, true, true⟩, .write [8] ⟨0, true, true, true⟩ ⟨9, true, true, true⟩,
      .process ⟨1, true, true, true⟩, .process ⟨2, true, true, true⟩]).1.s =
      { st := .done, out := [0x40, 0x54, 0x04], committed := 3, closed := true, ended := 1 }) := by decide +kernel

end Neqo.H3
