import Verif.Session.Model
import Verif.H3.SendProps
import Verif.H3.ReaderProps

/-!
# C101: HTTP datagrams
-/
namespace Neqo.Sess
open Neqo.Codec Neqo.H3

/-! ## The capsule loop is the frame loop -/

/-- The datagram in a capsule (RFC 9298 §5): context 0, then the payload. -/
def Spec.inCapsule (p : Bytes) : List Ev :=
  match decodeVarint p with
  | some (0, rest) => [.datagram rest]
  | _ => []

/-- The datagrams among what was read. -/
def Spec.datagrams : List (Item Bytes) → List Ev
  | [] => []
  | .byte _ :: l => Spec.datagrams l
  | .frame p :: l => Spec.inCapsule p ++ Spec.datagrams l

/-- What is said about the session when the control stream ends or is malformed. -/
def Spec.atEnd : End → List Ev
  | .more => []
  | .finished => [.ended (.clean 0 [])]
  | .failed _ => [.ended (.error 0x101)]

theorem capsuleEvents_eq (p : Bytes) : capsuleEvents p = Spec.inCapsule p := by
  unfold capsuleEvents Spec.inCapsule
  unfold SKind.contextId
  cases h : decodeVarint p with
  | none => rfl
  | some x =>
    obtain ⟨v, rest⟩ := x
    cases v with
    | zero => rfl
    | succ v => rfl

/-- The outcome for the session. -/
def outcome : End → Read
  | .more => .none
  | .finished => .state .done
  | .failed _ => .failed

theorem readUdp_pump : ∀ (fuel : Nat) (r : Reader) (s : Src),
    let x := readUdp fuel r s
    let y := Pump.run capsuleDecoder (fun _ => 0) fuel ⟨r, 0⟩ s
    x.1 = Spec.datagrams y.1 ++ (match y.2.1 with | .finished => [.ended (.clean 0 [])] | _ => []) ∧
    x.2.1 = outcome y.2.1 ∧
    (y.2.1 = .more → x.2.2.1 = y.2.2.reader ∧ y.2.2.left = 0) := by
  intro fuel
  induction fuel with
  | zero => intro r s; exact ⟨rfl, rfl, fun h => by cases h⟩
  | succ fuel ih =>
    intro r s
    dsimp only
    rw [run_succ, if_neg (by simp)]
    unfold readUdp
    dsimp only
    cases hr : r.receive capsuleDecoder s with
    | error e => exact ⟨rfl, rfl, fun h => by cases h⟩
    | ok x =>
      obtain ⟨r', s', o, fin⟩ := x
      cases o with
      | none =>
        cases fin with
        | false => exact ⟨rfl, rfl, fun _ => ⟨rfl, rfl⟩⟩
        | true => exact ⟨rfl, rfl, fun h => by cases h⟩
      | some f =>
        cases fin with
        | true =>
          refine ⟨?_, rfl, fun h => by cases h⟩
          simp only [if_true, Bool.and_true, decide_true, Spec.datagrams, List.append_nil]
          rw [capsuleEvents_eq]
        | false =>
          obtain ⟨i1, i2, i3⟩ := ih r' s'
          simp only [Bool.false_and, Bool.false_eq_true, if_false]
          refine ⟨?_, i2, i3⟩
          rw [capsuleEvents_eq, i1]
          simp only [Spec.datagrams, List.append_assoc]

theorem receiveLoop_empty {T : Type} (F : FrameDecoder T) {payload : T → Nat}
    {kind : Nat → H3.Spec.Kind T} (ha : Agrees F payload kind) :
    ∀ (fuel : Nat) (r : Reader) (s : Src) {r' : Reader} {s' : Src}, VR kind r →
      r.receiveLoop F fuel s = .ok (r', s', none, false) → s'.avail = [] ∧ s'.fin = s.fin := by
  intro fuel
  induction fuel with
  | zero => intro r s r' s' _ h; cases h
  | succ fuel ih =>
    intro r s r' s' hv h
    have hmin := minRemaining_pos r hv
    have hto : 0 < min r.minRemaining maxReadSize := by
      have : 0 < maxReadSize := by decide
      omega
    rw [receiveLoop_succ] at h
    have hlen : (s.avail.take (min r.minRemaining maxReadSize)).length ≤ r.minRemaining := by
      rw [List.length_take]; omega
    generalize min r.minRemaining maxReadSize = n at *
    by_cases he : s.avail.take n = []
    · rw [if_pos he] at h
      have hav : s.avail = [] := by
        cases hs : s.avail with
        | nil => rfl
        | cons a l =>
          rw [hs] at he
          cases n with
          | zero => omega
          | succ n => cases he
      simp only [pure, Except.pure, he, if_true] at h
      split at h
      · split at h
        · cases h
        · injection h with h; injection h with _ h; injection h with _ h
          injection h with _ h; cases h
      · injection h with h; injection h with _ h; injection h with h _
        subst h
        exact ⟨by rw [hav]; simp, rfl⟩
    · rw [if_neg he] at h
      have hg := consume_good ha r hv (s.avail.take n) he hlen
      cases hc : r.consume F (s.avail.take n) with
      | error e => rw [hc] at h; cases h
      | ok x =>
        obtain ⟨r2, o⟩ := x
        rw [hc] at h hg
        cases o with
        | some f =>
          simp only [pure, Except.pure] at h
          injection h with h; injection h with _ h; injection h with _ h
          injection h with h _; cases h
        | none =>
          simp only [pure, Except.pure, he, if_false] at h
          split at h
          · split at h
            · cases h
            · injection h with h; injection h with _ h; injection h with _ h
              injection h with _ h; cases h
          · exact ih r2 ⟨s.avail.drop n, s.fin⟩ hg.1 h

theorem readUdp_empty : ∀ (fuel : Nat) (r : Reader) (s : Src), VR H3.Spec.capsule r →
    (readUdp fuel r s).2.1 = .none → (readUdp fuel r s).2.2.2.avail = [] := by
  intro fuel
  induction fuel with
  | zero => intro r s _ h; cases h
  | succ fuel ih =>
    intro r s hv h
    have hgood := receiveLoop_good capsule_agrees (s.avail.length + 1) r s hv (by omega)
    unfold readUdp at h ⊢
    cases hr : r.receive capsuleDecoder s with
    | error e => rw [hr] at h; cases h
    | ok x =>
      obtain ⟨r', s', o, fin⟩ := x
      rw [hr] at h
      unfold Reader.receive at hr
      rw [hr] at hgood
      cases o with
      | none =>
        cases fin with
        | false => exact (receiveLoop_empty _ capsule_agrees _ _ _ hv hr).1
        | true => cases h
      | some f =>
        cases fin with
        | true => cases h
        | false => exact ih r' s' (vr_reset hgood.1) h

/-! ## The control stream in pieces -/

/-- The control stream's content arrives in pieces, the last with the end or not. -/
def pieces : List Bytes → Bool → List Op
  | [], _ => []
  | [c], fin => [.arrive (.content c fin)]
  | c :: cs, fin => .arrive (.content c false) :: pieces cs fin

theorem run_gone (utf8 : Bytes → Bool) : ∀ (ops : List Op) (s : Session), s.gone = true →
    s.run utf8 ops = ([], s) := by
  intro ops
  induction ops with
  | nil => intro s _; rfl
  | cons op ops ih =>
    intro s h
    have h1 : s.step utf8 op = ([], s) := by unfold Session.step; rw [if_pos h]
    unfold Session.run
    rw [h1]
    dsimp only
    rw [ih s h]
    rfl

theorem receive_content (utf8 : Bytes → Bool) (s : Session) (hk : s.kind = .connectUdp)
    (hst : s.st = .active) (hav : s.src.avail = []) (hv : VR H3.Spec.capsule s.reader) (c : Bytes)
    (fin : Bool) :
    let y := Pump.run capsuleDecoder (fun _ => 0) (c.length + 1) ⟨s.reader, 0⟩ ⟨c, fin⟩
    let x := s.receive utf8 (.content c fin)
    x.1 = Spec.datagrams y.1 ++ Spec.atEnd y.2.1 ∧
    (y.2.1 ≠ .more → x.2.gone = true) ∧
    (y.2.1 = .more → x.2.gone = false ∧ x.2.kind = .connectUdp ∧ x.2.st = .active ∧
      x.2.src.avail = [] ∧ x.2.reader = y.2.2.reader ∧ y.2.2.left = 0) := by
  obtain ⟨id, kind, st, reader, ⟨avail, sfin⟩, gone⟩ := s
  dsimp only at hk hst hav hv
  subst hk hst hav
  have h1 := readUdp_pump (c.length + 1) reader ⟨c, fin⟩
  have h2 := readUdp_empty (c.length + 1) reader ⟨c, fin⟩ hv
  dsimp only at h1 ⊢
  unfold Session.receive Session.accept Session.arrived Session.readControl
  dsimp only [List.nil_append]
  generalize Pump.run capsuleDecoder (fun _ => 0) (c.length + 1) ⟨reader, 0⟩ ⟨c, fin⟩ = y at *
  generalize readUdp (c.length + 1) reader ⟨c, fin⟩ = x at *
  obtain ⟨xe, xr, xrd, xs⟩ := x
  obtain ⟨ye, yend, yp⟩ := y
  dsimp only at h1 h2 ⊢
  obtain ⟨i1, i2, i3⟩ := h1
  subst i2
  cases yend with
  | more =>
    refine ⟨?_, fun h => absurd rfl h, fun _ => ⟨rfl, rfl, rfl, h2 rfl, (i3 rfl).1, (i3 rfl).2⟩⟩
    simp [outcome, i1, Spec.atEnd]
  | finished =>
    refine ⟨?_, fun _ => ?_, fun h => by cases h⟩
    · simp [outcome, i1, Spec.atEnd]
    · simp [outcome]
  | failed e =>
    refine ⟨?_, fun _ => ?_, fun h => by cases h⟩
    · simp [outcome, i1, Spec.atEnd, Session.close, St.closing, generalProtocol]
    · simp [outcome]

/-- An active CONNECT-UDP session that gets its control stream in pieces tells the
application the datagrams in it, by the layout of RFC 9297, and how it ends. -/
theorem run_pieces (utf8 : Bytes → Bool) : ∀ (cs : List Bytes) (s : Session) (fin : Bool),
    cs ≠ [] → s.kind = .connectUdp → s.st = .active → s.gone = false → s.src.avail = [] →
    VR H3.Spec.capsule s.reader →
    (s.run utf8 (pieces cs fin)).1 =
      Spec.datagrams (from' H3.Spec.capsule ⟨s.reader, 0⟩ cs.flatten fin).1 ++
        Spec.atEnd (from' H3.Spec.capsule ⟨s.reader, 0⟩ cs.flatten fin).2 := by
  intro cs
  induction cs with
  | nil => intro s fin h; exact absurd rfl h
  | cons c cs ih =>
    intro s fin _ hk hst hg hav hv
    have hstep : ∀ f, s.step utf8 (.arrive (.content c f)) = s.receive utf8 (.content c f) := by
      intro f; unfold Session.step; rw [hg]; rfl
    cases cs with
    | nil =>
      have hrun : (s.run utf8 (pieces [c] fin)).1 = (s.receive utf8 (.content c fin)).1 := by
        unfold pieces Session.run
        rw [hstep]
        simp [Session.run]
      rw [hrun]
      obtain ⟨h1, h2, h3⟩ := receive_content utf8 s hk hst hav hv c fin
      have hgood := run_good capsule_agrees (c.length + 1) ⟨s.reader, 0⟩ ⟨c, fin⟩ (fun _ => hv)
        (by simp)
      rw [h1]
      simp only [List.flatten_cons, List.flatten_nil, List.append_nil]
      obtain ⟨g1, g2⟩ := hgood
      by_cases hm : (Pump.run capsuleDecoder (fun _ => 0) (c.length + 1) ⟨s.reader, 0⟩
          ⟨c, fin⟩).2.1 = .more
      · obtain ⟨e1, e2, e3⟩ := g1 hm
        have e3' := e3 [] fin
        simp only [List.append_nil] at e3'
        obtain rfl : fin = false := e1
        rw [e3', from_nil_false _ e2, hm]
        simp [H3.Spec.also]
      · have := g2 hm [] fin (fun h => ⟨rfl, h⟩)
        simp only [List.append_nil] at this
        rw [this]
    | cons c' cs' =>
      have hrun : s.run utf8 (pieces (c :: c' :: cs') fin) =
          ((s.receive utf8 (.content c false)).1 ++
            ((s.receive utf8 (.content c false)).2.run utf8 (pieces (c' :: cs') fin)).1,
           ((s.receive utf8 (.content c false)).2.run utf8 (pieces (c' :: cs') fin)).2) := by
        rw [pieces]
        · rw [Session.run, hstep]
        · intro h; cases h
      rw [hrun]
      obtain ⟨h1, h2, h3⟩ := receive_content utf8 s hk hst hav hv c false
      obtain ⟨g1, g2⟩ := run_good capsule_agrees (c.length + 1) ⟨s.reader, 0⟩ ⟨c, false⟩
        (fun _ => hv) (by simp)
      rw [List.flatten_cons]
      dsimp only
      by_cases hm : (Pump.run capsuleDecoder (fun _ => 0) (c.length + 1) ⟨s.reader, 0⟩
          ⟨c, false⟩).2.1 = .more
      · obtain ⟨_, e2, e3⟩ := g1 hm
        obtain ⟨f1, f2, f3, f4, f5, f6⟩ := h3 hm
        have hp : (Pump.run capsuleDecoder (fun _ => 0) (c.length + 1) ⟨s.reader, 0⟩
            ⟨c, false⟩).2.2 = ⟨(s.receive utf8 (.content c false)).2.reader, 0⟩ := by
          rw [f5]
          generalize (Pump.run capsuleDecoder (fun _ => 0) (c.length + 1) ⟨s.reader, 0⟩
            ⟨c, false⟩).2.2 = p at f6
          cases p
          simp only at f6
          rw [f6]
        have hv' : VR H3.Spec.capsule (s.receive utf8 (.content c false)).2.reader := by
          rw [f5]; exact e2 f6
        rw [ih _ fin (by simp) f2 f3 f1 f4 hv', h1, hm, e3, hp]
        have dapp : ∀ a b : List (Item Bytes),
            Spec.datagrams (a ++ b) = Spec.datagrams a ++ Spec.datagrams b := by
          intro a b
          induction a with
          | nil => rfl
          | cons x a iha =>
            cases x with
            | byte x => simpa [Spec.datagrams] using iha
            | frame p => simp [Spec.datagrams, iha]
        simp [H3.Spec.also, dapp, Spec.atEnd]
      · have := g2 hm (List.flatten (c' :: cs')) fin (fun h => by cases h)
        rw [this, run_gone utf8 _ _ (h2 hm), h1]
        simp

end Neqo.Sess
