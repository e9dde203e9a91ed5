import Verif.Session.Dgram

/-!
# C102: what the application is told about a session
-/
namespace Neqo.Sess
open Neqo.Codec Neqo.H3

/-! ## Specification -/

/-- An orderly report: the start, then datagrams, then the end and nothing more.
`started` is whether the start has been reported (or the session is the server's,
which accepted it itself). -/
def Spec.Orderly (started : Bool) : List Ev → Prop
  | [] => True
  | .started _ :: l => started = false ∧ Spec.Orderly true l
  | .datagram _ :: l => started = true ∧ Spec.Orderly true l
  | .ended _ :: l => l = []

/-- A report up to and including the first end. -/
def Spec.upToEnd : List Ev → List Ev
  | [] => []
  | .ended r :: _ => [.ended r]
  | e :: l => e :: Spec.upToEnd l

/-- The application has been told of the end. -/
def Spec.Told (evs : List Ev) : Prop := ∃ r, Ev.ended r ∈ evs

/-- The peer's stream starts with the response headers. -/
def Spec.Answered : List Op → Prop
  | [] => True
  | .arrive (.headers _ _ _ _) :: _ => True
  | .arrive (.content _ _) :: _ => False
  | _ :: l => Spec.Answered l

/-- The application does not close the session. -/
def Spec.NoClose (ops : List Op) : Prop := ∀ op ∈ ops, ∀ sent, op ≠ .appClose sent

/-- The application leaves the session alone. -/
def Spec.HandsOff (ops : List Op) : Prop :=
  Spec.NoClose ops ∧ ∀ op ∈ ops, op ≠ .appReset ∧ op ≠ .flush true

/-! ## Lemmas -/

def dgrams (ds : List Bytes) : List Ev := ds.map .datagram

theorem capsuleEvents_dgrams (p : Bytes) : ∃ ds, capsuleEvents p = dgrams ds := by
  unfold capsuleEvents
  split
  · rename_i q _; exact ⟨[q], rfl⟩
  · exact ⟨[], rfl⟩

theorem dgrams_append (a b : List Bytes) : dgrams a ++ dgrams b = dgrams (a ++ b) := by
  simp [dgrams]

theorem readUdp_shape : ∀ (fuel : Nat) (r : Reader) (s : Src), ∃ ds,
    ((readUdp fuel r s).1 = dgrams ds ∧
      ((readUdp fuel r s).2.1 = .none ∨ (readUdp fuel r s).2.1 = .failed)) ∨
    ((readUdp fuel r s).1 = dgrams ds ++ [.ended (.clean 0 [])] ∧
      (readUdp fuel r s).2.1 = .state .done) := by
  intro fuel
  induction fuel with
  | zero => intro r s; exact ⟨[], .inl ⟨rfl, .inr rfl⟩⟩
  | succ fuel ih =>
    intro r s
    unfold readUdp
    cases hr : r.receive capsuleDecoder s with
    | error e => exact ⟨[], .inl ⟨rfl, .inr rfl⟩⟩
    | ok x =>
      obtain ⟨r', s', o, fin⟩ := x
      cases o with
      | none =>
        cases fin with
        | false => exact ⟨[], .inl ⟨rfl, .inl rfl⟩⟩
        | true => exact ⟨[], .inr ⟨rfl, rfl⟩⟩
      | some f =>
        obtain ⟨d1, h1⟩ := capsuleEvents_dgrams f
        cases fin with
        | true => exact ⟨d1, .inr ⟨by simp [h1], rfl⟩⟩
        | false =>
          obtain ⟨d2, h2⟩ := ih r' s'
          refine ⟨d1 ++ d2, ?_⟩
          dsimp only
          rcases h2 with ⟨h2, h3⟩ | ⟨h2, h3⟩
          · exact .inl ⟨by simp [h1, h2, dgrams_append], h3⟩
          · exact .inr ⟨by simp [h1, h2, ← dgrams_append], h3⟩

theorem readControl_shape (utf8 : Bytes → Bool) (s : Session) : ∃ ds,
    ((s.readControl utf8).1 = dgrams ds ∧ (s.readControl utf8).2.1.st = s.st ∧
      (s.readControl utf8).2.1.gone = s.gone) ∨
    (∃ r, (s.readControl utf8).1 = dgrams ds ++ [.ended r] ∧
      (s.readControl utf8).2.1.st.closing = true ∧ (s.readControl utf8).2.2 = false ∧
      (s.readControl utf8).2.1.gone = s.gone ∧
      (s.kind = .connectUdp → (s.readControl utf8).2.1.st = .done)) := by
  obtain ⟨id, kind, st, reader, src, gone⟩ := s
  unfold Session.readControl
  cases kind with
  | connectUdp =>
    obtain ⟨ds, h⟩ := readUdp_shape (src.avail.length + 1) reader src
    refine ⟨ds, ?_⟩
    dsimp only
    generalize readUdp (src.avail.length + 1) reader src = x at *
    obtain ⟨x1, x2, x3, x4⟩ := x
    dsimp only at h ⊢
    rcases h with ⟨h1, h2 | h2⟩ | ⟨h1, h2⟩
    · subst h2; exact .inl ⟨h1, rfl, rfl⟩
    · subst h2; exact .inl ⟨h1, rfl, rfl⟩
    · subst h2; exact .inr ⟨_, h1, rfl, rfl, rfl, fun _ => rfl⟩
  | webTransport =>
    refine ⟨[], ?_⟩
    dsimp only
    unfold readWt
    cases hr : reader.receive (wtDecoder utf8) src with
    | error e => exact .inl ⟨rfl, rfl, rfl⟩
    | ok x =>
      obtain ⟨r', s', o, fin⟩ := x
      cases o with
      | none =>
        cases fin with
        | false => exact .inl ⟨rfl, rfl, rfl⟩
        | true => exact .inr ⟨_, rfl, rfl, rfl, rfl, fun h => by cases h⟩
      | some f =>
        cases fin with
        | false => exact .inr ⟨_, rfl, rfl, rfl, rfl, fun h => by cases h⟩
        | true => exact .inr ⟨_, rfl, rfl, rfl, rfl, fun h => by cases h⟩

/-- What one step does to a session that is active: it stays so; it ends and the
application is told; or the application ended it. -/
def ActiveStep (s : Session) (op : Op) (x : List Ev × Session) : Prop :=
  ∃ ds, (x.1 = dgrams ds ∧ x.2.st = .active ∧ x.2.gone = false) ∨
    (∃ r, x.1 = dgrams ds ++ [.ended r] ∧ x.2.st.closing = true ∧
      (x.2.st = .done → x.2.gone = true) ∧ (s.kind = .connectUdp → x.2.st = .done)) ∨
    (x.1 = [] ∧ x.2.gone = true ∧ (op = .appReset ∨ op = .flush true))

theorem receive_active (utf8 : Bytes → Bool) (s : Session) (a : Arrival) (hst : s.st = .active)
    (hg : s.gone = false) (op : Op) : ActiveStep s op (s.receive utf8 a) := by
  have ha : (s.accept a).st = .active ∧ (s.accept a).gone = false ∧ (s.accept a).kind = s.kind := by
    unfold Session.accept
    split
    · split
      · exact ⟨hst, hg, rfl⟩
      · exact ⟨hst, hg, rfl⟩
    · exact ⟨hst, hg, rfl⟩
  have hb : (s.accept a).arrived a = ([], s.accept a) := by
    unfold Session.arrived
    split
    · unfold Session.checkHeaders; rw [if_pos (by rw [ha.1]; intro h; cases h)]
    · rfl
  unfold Session.receive
  rw [hb]
  dsimp only
  obtain ⟨ds, h⟩ := readControl_shape utf8 (s.accept a)
  generalize Session.readControl utf8 (s.accept a) = y at h
  obtain ⟨y1, y2, y3⟩ := y
  dsimp only at h ⊢
  refine ⟨ds, ?_⟩
  rcases h with ⟨h1, h2, h3⟩ | ⟨r, h1, h2, h3, h4, h5⟩
  · rw [ha.1] at h2
    rw [ha.2.1] at h3
    cases y3 with
    | false =>
      refine .inl ⟨by simp [h1], h2, ?_⟩
      simp [h2]
    | true =>
      refine .inr (.inl ⟨.error generalProtocol, ?_, ?_, ?_, ?_⟩)
      · simp [h1, Session.close, h2, St.closing]
      · simp [Session.close, h2, St.closing]
      · intro _; rfl
      · intro _; simp [Session.close, h2, St.closing]
  · subst h3
    refine .inr (.inl ⟨r, by simp [h1], h2, fun h => ?_, fun hk => ?_⟩)
    · simpa using h
    · exact h5 (by rw [ha.2.2, hk])

theorem step_active (utf8 : Bytes → Bool) (s : Session) (op : Op) (hst : s.st = .active)
    (hg : s.gone = false) (hop : ∀ sent, op ≠ .appClose sent) :
    ActiveStep s op (s.step utf8 op) := by
  have hnc : s.st.closing = false := by rw [hst]; rfl
  unfold Session.step
  rw [hg]
  simp only [Bool.false_eq_true, if_false]
  cases op with
  | arrive a => exact receive_active utf8 s a hst hg _
  | peerReset code =>
    refine ⟨[], .inr (.inl ⟨.error code, ?_, ?_, ?_, ?_⟩)⟩
    · simp [Session.close, hnc, dgrams]
    · simp [Session.close, hnc]; rfl
    · intro _; rfl
    · intro _; simp [Session.close, hnc]
  | appReset =>
    refine ⟨[], .inr (.inr ⟨?_, rfl, .inl rfl⟩)⟩
    simp [Session.close, hnc]
  | appClose sent => exact absurd rfl (hop sent)
  | flush sent =>
    cases sent with
    | false => exact ⟨[], .inl ⟨rfl, hst, hg⟩⟩
    | true => exact ⟨[], .inr (.inr ⟨rfl, rfl, .inr rfl⟩)⟩
  | datagram d =>
    dsimp only [Session.datagram]
    rw [if_neg (by simp [hst])]
    cases s.kind.contextId d with
    | none => exact ⟨[], .inl ⟨rfl, hst, hg⟩⟩
    | some p => exact ⟨[p], .inl ⟨rfl, hst, hg⟩⟩

theorem upToEnd_dgrams (ds : List Bytes) (l : List Ev) :
    Spec.upToEnd (dgrams ds ++ l) = dgrams ds ++ Spec.upToEnd l := by
  induction ds with
  | nil => rfl
  | cons d ds ih => simp only [dgrams, List.map_cons, List.cons_append, Spec.upToEnd] at ih ⊢; rw [ih]

theorem orderly_dgrams (ds : List Bytes) (l : List Ev) (h : Spec.Orderly true l) :
    Spec.Orderly true (dgrams ds ++ l) := by
  induction ds with
  | nil => exact h
  | cons d ds ih => exact ⟨rfl, ih⟩

theorem not_told_dgrams (ds : List Bytes) : ¬ Spec.Told (dgrams ds) := by
  rintro ⟨r, h⟩
  simp [dgrams] at h

theorem run_cons (utf8 : Bytes → Bool) (s : Session) (op : Op) (ops : List Op) :
    s.run utf8 (op :: ops) = ((s.step utf8 op).1 ++ ((s.step utf8 op).2.run utf8 ops).1,
      ((s.step utf8 op).2.run utf8 ops).2) := rfl

theorem run_active (utf8 : Bytes → Bool) : ∀ (ops : List Op) (s : Session), s.st = .active →
    s.gone = false → Spec.NoClose ops → Spec.Orderly true (Spec.upToEnd (s.run utf8 ops).1) := by
  intro ops
  induction ops with
  | nil => intro s _ _ _; trivial
  | cons op ops ih =>
    intro s hst hg hno
    rw [run_cons]
    obtain ⟨ds, h⟩ := step_active utf8 s op hst hg (hno op (by simp))
    have hno' : Spec.NoClose ops := fun o ho => hno o (by simp [ho])
    rcases h with ⟨h1, h2, h3⟩ | ⟨r, h1, _⟩ | ⟨h1, h2, _⟩
    · rw [h1, upToEnd_dgrams]
      exact orderly_dgrams ds _ (ih _ h2 h3 hno')
    · dsimp only
      rw [h1, List.append_assoc, upToEnd_dgrams]
      exact orderly_dgrams ds _ rfl
    · dsimp only
      rw [h1, run_gone utf8 ops _ h2]
      trivial

/-- A session that waits for the response has read nothing. -/
def Waiting (s : Session) : Prop :=
  s.st = .negotiating ∧ s.gone = false ∧ s.src = ⟨[], false⟩ ∧ s.reader = Reader.new

theorem readControl_nothing (utf8 : Bytes → Bool) (s : Session) (h1 : s.src = ⟨[], false⟩)
    (h2 : s.reader = Reader.new) : s.readControl utf8 = ([], s, false) := by
  obtain ⟨id, kind, st, reader, src, gone⟩ := s
  dsimp only at h1 h2
  subst h1 h2
  unfold Session.readControl
  cases kind with
  | connectUdp => rfl
  | webTransport => rfl

/-- What the response does: success starts the session, and what came with it is
read as on an active session; anything else ends it. -/
theorem receive_headers (utf8 : Bytes → Bool) (s : Session) (h : Waiting s) (status : Nat)
    (fin : Bool) (d : Bytes) (dfin : Bool) :
    let x := s.receive utf8 (.headers status fin d dfin)
    (∃ l, x.1 = .started status :: l ∧ 200 ≤ status ∧ status < 300 ∧
      ActiveStep s (.arrive (.headers status fin d dfin)) (l, x.2)) ∨
    (∃ r l, x.1 = .ended r :: l ∧
      (fin = true ∨ (d = [] ∧ dfin = false) → l = [] ∧ x.2.gone = true ∧ x.2.st = .done) ∧
      ((r = .status status ∧ ¬ (200 ≤ status ∧ status < 300)) ∨ (r = .clean 0 [] ∧ fin = true))) := by
  obtain ⟨h1, h2, h3, h4⟩ := h
  obtain ⟨id, kind, st, reader, src, gone⟩ := s
  dsimp only at h1 h2 h3 h4
  subst h1 h2 h3 h4
  by_cases hs : 200 ≤ status ∧ status < 300
  · cases fin with
    | true =>
      refine .inr ⟨.clean 0 [], [], ?_, ?_, .inr ⟨rfl, rfl⟩⟩
      · unfold Session.receive Session.accept Session.arrived Session.checkHeaders
        simp only [ne_eq, not_true_eq_false, if_false, if_true, hs, and_self]
        rw [readControl_nothing utf8 _ rfl rfl]
        simp
      · intro _
        unfold Session.receive Session.accept Session.arrived Session.checkHeaders
        simp only [ne_eq, not_true_eq_false, if_false, if_true, hs, and_self]
        rw [readControl_nothing utf8 _ rfl rfl]
        simp
    | false =>
      have hact := receive_active utf8 ⟨id, kind, .active, Reader.new, ⟨[], false⟩, false⟩
        (.content d dfin) rfl rfl (.arrive (.headers status false d dfin))
      have key : Session.receive utf8 ⟨id, kind, .negotiating, Reader.new, ⟨[], false⟩, false⟩
            (.headers status false d dfin) =
          (.started status :: (Session.receive utf8
              ⟨id, kind, .active, Reader.new, ⟨[], false⟩, false⟩ (.content d dfin)).1,
            (Session.receive utf8
              ⟨id, kind, .active, Reader.new, ⟨[], false⟩, false⟩ (.content d dfin)).2) := by
        unfold Session.receive Session.accept Session.arrived Session.checkHeaders
        simp only [ne_eq, not_true_eq_false, if_false, if_true, hs, and_self, Bool.false_eq_true]
        split <;> simp
      rw [key]
      exact .inl ⟨_, rfl, hs.1, hs.2, hact⟩
  · have hch : ∀ src, Session.checkHeaders
          ⟨id, kind, .negotiating, Reader.new, src, false⟩ status fin =
        ([.ended (.status status)], ⟨id, kind, .done, Reader.new, src, false⟩) := by
      intro src; unfold Session.checkHeaders; simp [hs]
    cases fin with
    | true =>
      refine .inr ⟨.status status, [], ?_, ?_, .inl ⟨rfl, hs⟩⟩
      · unfold Session.receive Session.accept Session.arrived
        dsimp only
        rw [if_pos rfl, hch, readControl_nothing utf8 _ rfl rfl]
        simp
      · intro _
        unfold Session.receive Session.accept Session.arrived
        dsimp only
        rw [if_pos rfl, hch, readControl_nothing utf8 _ rfl rfl]
        simp
    | false =>
      have key : Session.receive utf8 ⟨id, kind, .negotiating, Reader.new, ⟨[], false⟩, false⟩
            (.headers status false d dfin) =
          (.ended (.status status) :: (Session.receive utf8
              ⟨id, kind, .done, Reader.new, ⟨[], false⟩, false⟩ (.content d dfin)).1,
            (Session.receive utf8
              ⟨id, kind, .done, Reader.new, ⟨[], false⟩, false⟩ (.content d dfin)).2) := by
        unfold Session.receive Session.accept Session.arrived
        simp only [if_false, hch, Bool.false_eq_true]
        split <;> simp
      rw [key]
      refine .inr ⟨.status status, _, rfl, ?_, .inl ⟨rfl, hs⟩⟩
      intro h
      rcases h with h | ⟨rfl, rfl⟩
      · cases h
      · unfold Session.receive Session.accept Session.arrived
        dsimp only [List.append_nil]
        rw [readControl_nothing utf8 _ rfl rfl]
        simp

/-! ## The theorems -/

/-- Up to the first report of the end, everything is reported in order: nothing
before the start, the start once, then the datagrams, then the end.  (The client's
side; what is missing for the whole report to be orderly is below.) -/
theorem C102_in_order_partial (utf8 : Bytes → Bool) (id : Nat) (kind : SKind) (ops : List Op)
    (hans : Spec.Answered ops) (hno : Spec.NoClose ops) :
    Spec.Orderly false (Spec.upToEnd ((Session.new id kind).run utf8 ops).1) := by
  have gen : ∀ (ops : List Op) (s : Session), Waiting s → Spec.Answered ops → Spec.NoClose ops →
      Spec.Orderly false (Spec.upToEnd (s.run utf8 ops).1) := by
    intro ops
    induction ops with
    | nil => intro s _ _ _; trivial
    | cons op ops ih =>
      intro s hw hans hno
      have hno' : Spec.NoClose ops := fun o ho => hno o (by simp [ho])
      have hg : s.gone = false := hw.2.1
      have hnc : s.st.closing = false := by rw [hw.1]; rfl
      rw [run_cons]
      cases op with
      | arrive a =>
        have hs : s.step utf8 (.arrive a) = s.receive utf8 a := by
          unfold Session.step; rw [hg]; rfl
        rw [hs]
        cases a with
        | content d fin => exact absurd hans (by simp [Spec.Answered])
        | headers status fin d dfin =>
          rcases receive_headers utf8 s hw status fin d dfin with
            ⟨l, h1, _, _, ds, h2⟩ | ⟨r, l, h1, _⟩
          · dsimp only at h1 ⊢
            rw [h1, List.cons_append]
            refine ⟨rfl, ?_⟩
            rcases h2 with ⟨h2, h3, h4⟩ | ⟨r, h2, _⟩ | ⟨_, _, h3 | h3⟩
            · dsimp only at h2
              rw [h2, upToEnd_dgrams]
              exact orderly_dgrams ds _ (run_active utf8 ops _ h3 h4 hno')
            · dsimp only at h2
              rw [h2, List.append_assoc, upToEnd_dgrams]
              exact orderly_dgrams ds _ rfl
            · cases h3
            · cases h3
          · dsimp only at h1 ⊢
            rw [h1]
            exact rfl
      | peerReset code =>
        have hs : (s.step utf8 (.peerReset code)).1 = [.ended (.error code)] := by
          unfold Session.step; rw [hg]; simp [Session.close, hnc]
        rw [hs]
        exact rfl
      | appReset =>
        have hs : (s.step utf8 .appReset).1 = [] ∧ (s.step utf8 .appReset).2.gone = true := by
          unfold Session.step; rw [hg]; simp [Session.close, hnc]
        rw [hs.1, run_gone utf8 _ _ hs.2]
        trivial
      | appClose sent => exact absurd rfl (hno (.appClose sent) (by simp) sent)
      | flush sent =>
        cases sent with
        | false =>
          have hs : s.step utf8 (.flush false) = ([], s) := by
            unfold Session.step; rw [hg]; rfl
          rw [hs]
          exact ih s hw hans hno'
        | true =>
          have hs : (s.step utf8 (.flush true)).1 = [] ∧
              (s.step utf8 (.flush true)).2.gone = true := by
            unfold Session.step; rw [hg]; exact ⟨rfl, rfl⟩
          rw [hs.1, run_gone utf8 _ _ hs.2]
          trivial
      | datagram d =>
        have hs : s.step utf8 (.datagram d) = ([], s) := by
          unfold Session.step; rw [hg]
          simp [Session.datagram, hw.1]
        rw [hs]
        exact ih s hw hans hno'
  exact gen ops _ ⟨rfl, rfl, rfl, rfl⟩ hans hno

/-- The same on the server's side, where the session starts when it is accepted. -/
theorem C102_in_order_server_partial (utf8 : Bytes → Bool) (id : Nat) (kind : SKind)
    (ops : List Op) (hno : Spec.NoClose ops) :
    Spec.Orderly true (Spec.upToEnd ((Session.accepted id kind).run utf8 ops).1) :=
  run_active utf8 ops _ rfl rfl hno

/-- A session never ends without the application being told, unless the application
ended it: as long as no end was reported, the session is still there, waiting for
the response or active. -/
theorem C102_end_is_told (utf8 : Bytes → Bool) (id : Nat) (kind : SKind) (ops : List Op)
    (hans : Spec.Answered ops) (hno : Spec.HandsOff ops)
    (hnot : ¬ Spec.Told ((Session.new id kind).run utf8 ops).1) :
    ((Session.new id kind).run utf8 ops).2.gone = false ∧
      (((Session.new id kind).run utf8 ops).2.st = .negotiating ∨
        ((Session.new id kind).run utf8 ops).2.st = .active) := by
  have told : ∀ (a b : List Ev), ¬ Spec.Told (a ++ b) → ¬ Spec.Told a ∧ ¬ Spec.Told b := by
    intro a b h
    exact ⟨fun ⟨r, hr⟩ => h ⟨r, by simp [hr]⟩, fun ⟨r, hr⟩ => h ⟨r, by simp [hr]⟩⟩
  have act : ∀ (ops : List Op) (s : Session), s.st = .active → s.gone = false →
      Spec.HandsOff ops → ¬ Spec.Told (s.run utf8 ops).1 →
      (s.run utf8 ops).2.gone = false ∧ (s.run utf8 ops).2.st = .active := by
    intro ops
    induction ops with
    | nil => intro s h1 h2 _ _; exact ⟨h2, h1⟩
    | cons op ops ih =>
      intro s hst hg hno hnot
      have hno' : Spec.HandsOff ops :=
        ⟨fun o ho => hno.1 o (by simp [ho]), fun o ho => hno.2 o (by simp [ho])⟩
      rw [run_cons] at hnot ⊢
      have hn := told _ _ hnot
      obtain ⟨ds, h⟩ := step_active utf8 s op hst hg (hno.1 op (by simp))
      rcases h with ⟨h1, h2, h3⟩ | ⟨r, h1, _⟩ | ⟨_, _, h3 | h3⟩
      · exact ih _ h2 h3 hno' hn.2
      · exact absurd ⟨r, by rw [h1]; simp⟩ hn.1
      · exact absurd h3 (hno.2 op (by simp)).1
      · exact absurd h3 (hno.2 op (by simp)).2
  have gen : ∀ (ops : List Op) (s : Session), Waiting s → Spec.Answered ops → Spec.HandsOff ops →
      ¬ Spec.Told (s.run utf8 ops).1 →
      (s.run utf8 ops).2.gone = false ∧
        ((s.run utf8 ops).2.st = .negotiating ∨ (s.run utf8 ops).2.st = .active) := by
    intro ops
    induction ops with
    | nil => intro s hw _ _ _; exact ⟨hw.2.1, .inl hw.1⟩
    | cons op ops ih =>
      intro s hw hans hno hnot
      have hno' : Spec.HandsOff ops :=
        ⟨fun o ho => hno.1 o (by simp [ho]), fun o ho => hno.2 o (by simp [ho])⟩
      have hg : s.gone = false := hw.2.1
      have hnc : s.st.closing = false := by rw [hw.1]; rfl
      rw [run_cons] at hnot ⊢
      have hn := told _ _ hnot
      cases op with
      | arrive a =>
        have hs : s.step utf8 (.arrive a) = s.receive utf8 a := by
          unfold Session.step; rw [hg]; rfl
        rw [hs] at hn ⊢
        cases a with
        | content d fin => exact absurd hans (by simp [Spec.Answered])
        | headers status fin d dfin =>
          rcases receive_headers utf8 s hw status fin d dfin with
            ⟨l, h1, _, _, ds, h2⟩ | ⟨r, l, h1, _⟩
          · rcases h2 with ⟨h2, h3, h4⟩ | ⟨r, h2, _⟩ | ⟨_, _, h3 | h3⟩
            · have := act ops _ h3 h4 hno' hn.2
              exact ⟨this.1, .inr this.2⟩
            · exact absurd ⟨r, by rw [h1]; simp only at h2; rw [h2]; simp⟩ hn.1
            · cases h3
            · cases h3
          · exact absurd ⟨r, by rw [h1]; simp⟩ hn.1
      | peerReset code =>
        have hs : (s.step utf8 (.peerReset code)).1 = [.ended (.error code)] := by
          unfold Session.step; rw [hg]; simp [Session.close, hnc]
        exact absurd ⟨.error code, by rw [hs]; simp⟩ hn.1
      | appReset => exact absurd rfl (hno.2 .appReset (by simp)).1
      | appClose sent => exact absurd rfl (hno.1 (.appClose sent) (by simp) sent)
      | flush sent =>
        cases sent with
        | false =>
          have hs : s.step utf8 (.flush false) = ([], s) := by
            unfold Session.step; rw [hg]; rfl
          rw [hs] at hn ⊢
          exact ih s hw hans hno' hn.2
        | true => exact absurd rfl (hno.2 (.flush true) (by simp)).2
      | datagram d =>
        have hs : s.step utf8 (.datagram d) = ([], s) := by
          unfold Session.step; rw [hg]
          simp [Session.datagram, hw.1]
        rw [hs] at hn ⊢
        exact ih s hw hans hno' hn.2
  exact gen ops _ ⟨rfl, rfl, rfl, rfl⟩ hans hno hnot

/-! ## What is missing -/

/-- A refusal carries nothing behind it: the response ends with its headers, or
nothing more of it has arrived. -/
def Spec.BareRefusal (ops : List Op) : Prop :=
  ∀ op ∈ ops, ∀ status fin d dfin, op = .arrive (.headers status fin d dfin) →
    (200 ≤ status ∧ status < 300) ∨ fin = true ∨ (d = [] ∧ dfin = false)

/-- The whole report is orderly, in particular the end is reported once and last, if
refusals are bare and every CLOSE_SESSION comes together with the end of the
stream, so that the session is never left waiting for that. -/
theorem C102_once_partial (utf8 : Bytes → Bool) (id : Nat) (kind : SKind) (ops : List Op)
    (hans : Spec.Answered ops) (hno : Spec.NoClose ops) (hbare : Spec.BareRefusal ops)
    (hclose : ∀ pre, pre <+: ops → ((Session.new id kind).run utf8 pre).2.st ≠ .finPending) :
    Spec.Orderly false ((Session.new id kind).run utf8 ops).1 := by
  have pre_cons : ∀ (s : Session) (op : Op) (ops : List Op),
      (∀ pre, pre <+: op :: ops → (s.run utf8 pre).2.st ≠ .finPending) →
      (s.step utf8 op).2.st ≠ .finPending ∧
        ∀ pre, pre <+: ops → ((s.step utf8 op).2.run utf8 pre).2.st ≠ .finPending := by
    intro s op ops h
    have h2 : ∀ pre, pre <+: ops → ((s.step utf8 op).2.run utf8 pre).2.st ≠ .finPending := by
      intro pre hp
      have := h (op :: pre) (by rw [List.cons_prefix_cons]; exact ⟨rfl, hp⟩)
      rw [run_cons] at this
      exact this
    exact ⟨h2 [] (List.nil_prefix), h2⟩
  have act : ∀ (ops : List Op) (s : Session), s.st = .active → s.gone = false →
      Spec.NoClose ops → (∀ pre, pre <+: ops → (s.run utf8 pre).2.st ≠ .finPending) →
      Spec.Orderly true (s.run utf8 ops).1 := by
    intro ops
    induction ops with
    | nil => intro s _ _ _ _; trivial
    | cons op ops ih =>
      intro s hst hg hno hcl
      have hno' : Spec.NoClose ops := fun o ho => hno o (by simp [ho])
      obtain ⟨hc1, hc2⟩ := pre_cons s op ops hcl
      rw [run_cons]
      obtain ⟨ds, h⟩ := step_active utf8 s op hst hg (hno op (by simp))
      rcases h with ⟨h1, h2, h3⟩ | ⟨r, h1, h2, h3, _⟩ | ⟨h1, h2, _⟩
      · dsimp only
        rw [h1]
        exact orderly_dgrams ds _ (ih _ h2 h3 hno' hc2)
      · have hd : (s.step utf8 op).2.st = .done := by
          cases hx : (s.step utf8 op).2.st with
          | done => rfl
          | finPending => exact absurd hx hc1
          | active => rw [hx] at h2; cases h2
          | negotiating => rw [hx] at h2; cases h2
        dsimp only
        rw [h1, run_gone utf8 _ _ (h3 hd), List.append_assoc]
        exact orderly_dgrams ds _ rfl
      · dsimp only
        rw [h1, run_gone utf8 _ _ h2]
        trivial
  have gen : ∀ (ops : List Op) (s : Session), Waiting s → Spec.Answered ops → Spec.NoClose ops →
      Spec.BareRefusal ops → (∀ pre, pre <+: ops → (s.run utf8 pre).2.st ≠ .finPending) →
      Spec.Orderly false (s.run utf8 ops).1 := by
    intro ops
    induction ops with
    | nil => intro s _ _ _ _ _; trivial
    | cons op ops ih =>
      intro s hw hans hno hb hcl
      have hno' : Spec.NoClose ops := fun o ho => hno o (by simp [ho])
      have hb' : Spec.BareRefusal ops := fun o ho => hb o (by simp [ho])
      obtain ⟨hc1, hc2⟩ := pre_cons s op ops hcl
      have hg : s.gone = false := hw.2.1
      have hnc : s.st.closing = false := by rw [hw.1]; rfl
      rw [run_cons]
      cases op with
      | arrive a =>
        have hs : s.step utf8 (.arrive a) = s.receive utf8 a := by
          unfold Session.step; rw [hg]; rfl
        rw [hs] at hc1 hc2 ⊢
        cases a with
        | content d fin => exact absurd hans (by simp [Spec.Answered])
        | headers status fin d dfin =>
          have hbb := hb _ (by simp) status fin d dfin rfl
          rcases receive_headers utf8 s hw status fin d dfin with
            ⟨l, h1, _, _, ds, h2⟩ | ⟨r, l, h1, h2, h3⟩
          · dsimp only at h1 ⊢
            rw [h1, List.cons_append]
            refine ⟨rfl, ?_⟩
            rcases h2 with ⟨h2, h3, h4⟩ | ⟨r, h2, h3, h4, _⟩ | ⟨_, _, h3 | h3⟩
            · dsimp only at h2
              rw [h2]
              exact orderly_dgrams ds _ (act ops _ h3 h4 hno' hc2)
            · dsimp only at h2 h3 h4
              have hd : (s.receive utf8 (.headers status fin d dfin)).2.st = .done := by
                cases hx : (s.receive utf8 (.headers status fin d dfin)).2.st with
                | done => rfl
                | finPending => exact absurd hx hc1
                | active => rw [hx] at h3; cases h3
                | negotiating => rw [hx] at h3; cases h3
              rw [h2, run_gone utf8 _ _ (h4 hd), List.append_assoc]
              exact orderly_dgrams ds _ rfl
            · cases h3
            · cases h3
          · have hfin : fin = true ∨ (d = [] ∧ dfin = false) := by
              rcases h3 with ⟨_, h3⟩ | ⟨_, h3⟩
              · rcases hbb with hbb | hbb
                · exact absurd hbb h3
                · exact hbb
              · exact .inl h3
            obtain ⟨e1, e2, _⟩ := h2 hfin
            dsimp only at h1 ⊢
            rw [h1, e1, run_gone utf8 _ _ e2]
            exact rfl
      | peerReset code =>
        have hs : (s.step utf8 (.peerReset code)).1 = [.ended (.error code)] ∧
            (s.step utf8 (.peerReset code)).2.gone = true := by
          unfold Session.step; rw [hg]; simp [Session.close, hnc]
        rw [hs.1, run_gone utf8 _ _ hs.2]
        exact rfl
      | appReset =>
        have hs : (s.step utf8 .appReset).1 = [] ∧ (s.step utf8 .appReset).2.gone = true := by
          unfold Session.step; rw [hg]; simp [Session.close, hnc]
        rw [hs.1, run_gone utf8 _ _ hs.2]
        trivial
      | appClose sent => exact absurd rfl (hno (.appClose sent) (by simp) sent)
      | flush sent =>
        cases sent with
        | false =>
          have hs : s.step utf8 (.flush false) = ([], s) := by
            unfold Session.step; rw [hg]; rfl
          rw [hs] at hc2 ⊢
          exact ih s hw hans hno' hb' hc2
        | true =>
          have hs : (s.step utf8 (.flush true)).1 = [] ∧
              (s.step utf8 (.flush true)).2.gone = true := by
            unfold Session.step; rw [hg]; exact ⟨rfl, rfl⟩
          rw [hs.1, run_gone utf8 _ _ hs.2]
          trivial
      | datagram d =>
        have hs : s.step utf8 (.datagram d) = ([], s) := by
          unfold Session.step; rw [hg]
          simp [Session.datagram, hw.1]
        rw [hs] at hc2 ⊢
        exact ih s hw hans hno' hb' hc2
  exact gen ops _ ⟨rfl, rfl, rfl, rfl⟩ hans hno hbare hclose

/-- Without the first condition it is false: a refusal with an empty DATA frame and
the end of the stream behind the headers is reported twice, the second time as a
clean end. -/
theorem C102_refusal_reported_twice :
    ¬ ∀ (ops : List Op), Spec.Answered ops → Spec.NoClose ops →
      Spec.Orderly false ((Session.new 0 .webTransport).run (fun _ => true) ops).1 := by
  intro h
  have := h [.arrive (.headers 404 false [] true)] trivial (by intro o ho s he; simp at ho; rw [ho] at he; cases he)
  have hx : ((Session.new 0 .webTransport).run (fun _ => true)
      [.arrive (.headers 404 false [] true)]).1 =
    [.ended (.status 404), .ended (.clean 0 [])] := by decide +kernel
  rw [hx] at this
  cases this

/-- And the content of a refusal is read as capsules: the application gets
datagrams of a session that was never started and has been reported as ended. -/
theorem C102_refusal_yields_datagrams :
    ((Session.new 0 .connectUdp).run (fun _ => true)
      [.arrive (.headers 404 false [0, 2, 0, 7] false)]).1 =
    [.ended (.status 404), .datagram [7]] := by decide +kernel

/-- Without the second condition it is false: a CLOSE_SESSION whose stream ends
later is reported twice, the second time with error 0 and no message. -/
theorem C102_close_reported_twice :
    ((Session.new 0 .webTransport).run (fun _ => true)
      [.arrive (.headers 200 false [] false),
       .arrive (.content [0x68, 0x43, 5, 0, 0, 0, 9, 0x78] false),
       .arrive (.content [] true)]).1 =
    [.started 200, .ended (.clean 9 [0x78]), .ended (.clean 0 [])] := by decide +kernel

/-- And there is no bound on how often the end is reported. -/
theorem C102_close_reported_often (n : Nat) :
    ∃ ops, ((Session.accepted 0 .webTransport).run (fun _ => true) ops).1 =
      List.replicate n (.ended (.clean 9 [0x78])) := by
  have key : ∀ (n : Nat) (s : Session), s.kind = .webTransport → s.gone = false → s.st ≠ .done →
      s.src = ⟨[], false⟩ →
      s.reader = Reader.new ∨ s.reader = ⟨.getType {}, 0x2843, 5⟩ →
      (s.run (fun _ => true) (List.replicate n
        (.arrive (.content [0x68, 0x43, 5, 0, 0, 0, 9, 0x78] false)))).1 =
      List.replicate n (.ended (.clean 9 [0x78])) := by
    intro n
    induction n with
    | zero => intro s _ _ _ _ _; rfl
    | succ n ih =>
      intro s hk hg hst hsrc hr
      obtain ⟨id, kind, st, reader, src, gone⟩ := s
      dsimp only at hk hg hst hsrc hr
      subst hk hg hsrc
      rw [List.replicate_succ, run_cons]
      have hrecv : Reader.receive (wtDecoder fun _ => true) reader
          ⟨[0x68, 0x43, 5, 0, 0, 0, 9, 0x78], false⟩ =
          .ok (⟨.getType {}, 0x2843, 5⟩, ⟨[], false⟩, some ⟨9, [0x78]⟩, false) := by
        rcases hr with rfl | rfl <;> decide +kernel
      have hs : Session.step (fun _ => true)
          ⟨id, .webTransport, st, reader, ⟨[], false⟩, false⟩
          (.arrive (.content [0x68, 0x43, 5, 0, 0, 0, 9, 0x78] false)) =
          ([.ended (.clean 9 [0x78])],
            ⟨id, .webTransport, .finPending, ⟨.getType {}, 0x2843, 5⟩, ⟨[], false⟩, false⟩) := by
        simp only [Session.step, Session.receive, Session.accept, Session.arrived,
          Session.readControl, readWt, List.nil_append, hrecv]
        simp
      rw [hs]
      dsimp only
      rw [ih _ rfl rfl (by simp) rfl (.inr rfl)]
      rfl
  exact ⟨_, key n _ rfl rfl (by simp [Session.accepted]) rfl (.inl rfl)⟩

/-- After the application closed a session, the peer's capsules are still passed on,
while QUIC datagrams are not. -/
theorem C102_datagrams_after_close :
    ((Session.accepted 0 .connectUdp).run (fun _ => true)
      [.appClose false, .datagram [0, 6], .arrive (.content [0, 2, 0, 7] false)]).1 =
    [.datagram [7]] := by decide +kernel

/-- Once a session has been removed nothing is reported any more. -/
theorem C102_silent_when_gone (utf8 : Bytes → Bool) (s : Session) (h : s.gone = true)
    (ops : List Op) : (s.run utf8 ops).1 = [] := by rw [run_gone utf8 ops s h]

/-- What the application itself does is not reported back to it. -/
theorem C102_own_actions_silent (utf8 : Bytes → Bool) (s : Session) (op : Op)
    (h : op = .appReset ∨ (∃ sent, op = .appClose sent) ∨ ∃ sent, op = .flush sent) :
    (s.step utf8 op).1 = [] := by
  unfold Session.step
  cases hg : s.gone with
  | true => rfl
  | false =>
    rcases h with rfl | ⟨sent, rfl⟩ | ⟨sent, rfl⟩
    · simp only [Bool.false_eq_true, if_false, Session.close]
      split <;> rfl
    · rfl
    · rfl

/-- The error and the message the peer's application closes a WebTransport session
with are the ones reported. -/
theorem C102_close_message (utf8 : Bytes → Bool) (s : Session) (hk : s.kind = .webTransport)
    (hst : s.st = .active) (hg : s.gone = false) (hsrc : s.src.avail = [])
    (hr : s.reader = Reader.new) (f : WtFrame) (herr : f.error < 2 ^ 32)
    (hmsg : f.message.length ≤ 1024) (hutf8 : utf8 f.message = true) :
    ∃ e, f.encode = some e ∧ ∀ fin,
      (s.step utf8 (.arrive (.content e fin))).1 = [.ended (.clean f.error f.message)] ∧
      (s.step utf8 (.arrive (.content e fin))).2.st ≠ .active := by
  obtain ⟨a, b, ha, hb, hab⟩ := read_whole (kind := H3.Spec.webTransport utf8) (t := 0x2843)
    (payload := beBytes 4 f.error ++ f.message) (f := f) (limit := 1028) (by decide) rfl
    (by simp; omega) (by simp; omega)
    (by
      rw [decodeN_beBytes (by decide) (by decide), Nat.mod_eq_of_lt (by simpa using herr)]
      simp only [hutf8, if_true])
  refine ⟨a ++ b, by simp [WtFrame.encode, ha, hb], fun fin => ?_⟩
  have hread := hab [] fin
  rw [List.append_nil] at hread
  have hgood := receiveLoop_good (webTransport_agrees utf8) ((a ++ b).length + 1) Reader.new
    ⟨a ++ b, fin⟩ vr_new (by simp)
  have hstep : s.step utf8 (.arrive (.content (a ++ b) fin)) =
      s.receive utf8 (.content (a ++ b) fin) := by
    unfold Session.step; rw [hg]; rfl
  rw [hstep]
  obtain ⟨id, kind, st, reader, ⟨avail, sfin⟩, gone⟩ := s
  dsimp only at hk hst hg hsrc hr
  subst hk hst hg hsrc hr
  unfold Session.receive Session.accept Session.arrived Session.readControl readWt Reader.receive
  dsimp only [List.nil_append]
  have hf : ∀ x : List (Item WtFrame) × End, x = from' (H3.Spec.webTransport utf8)
      ⟨Reader.new, 0⟩ (a ++ b) fin → x.1.head? = some (.frame f) := by
    intro x hx
    rw [hx, from_reset Reader.new rfl, hread]
    rfl
  cases hl : Reader.receiveLoop (wtDecoder utf8) ((a ++ b).length + 1) Reader.new ⟨a ++ b, fin⟩ with
  | error e =>
    rw [hl] at hgood
    have he := hgood [] fin (fun h => ⟨rfl, h⟩)
    rw [List.append_nil] at he
    have := hf ([], .failed e) he.symm
    cases this
  | ok x =>
    obtain ⟨r', s', o, fin'⟩ := x
    rw [hl] at hgood
    cases o with
    | none =>
      cases fin' with
      | true =>
        obtain ⟨h1, h2⟩ := hgood
        dsimp only at h1
        subst h1
        have := hf _ h2.symm
        cases this
      | false =>
        obtain ⟨h1, h2, h3⟩ := hgood
        have h4 := h3 [] fin
        dsimp only at h2
        subst h2
        rw [List.append_nil, from_nil_false _ (fun _ => h1)] at h4
        have := hf _ h4.symm
        cases this
    | some f' =>
      obtain ⟨_, _, _, _, h5⟩ := hgood
      have h6 := h5 [] fin (fun h => ⟨rfl, h⟩)
      rw [List.append_nil] at h6
      have h7 := hf _ h6.symm
      have : f' = f := by
        simp only [H3.Spec.also, List.singleton_append, List.head?_cons, Option.some.injEq,
          Item.frame.injEq] at h7
        exact h7
      subst this
      cases fin' <;> simp

/-! ## Examples -/

example : Spec.Answered [.datagram [1], .arrive (.headers 200 false [0, 2, 0, 7] false),
    .arrive (.content [0, 1, 0] true)] ∧
    ((Session.new 4 .connectUdp).run (fun _ => true)
      [.datagram [1], .arrive (.headers 200 false [0, 2, 0, 7] false),
        .datagram [0, 8], .arrive (.content [0, 1, 0] true), .peerReset 3]).1 =
    [.started 200, .datagram [7], .datagram [8], .datagram [], .ended (.clean 0 [])] := by
  refine ⟨trivial, by decide +kernel⟩

example : ((Session.new 4 .connectUdp).run (fun _ => true)
    [.arrive (.headers 200 false [] false), .peerReset 3, .peerReset 4]).1 =
    [.started 200, .ended (.error 3)] := by decide +kernel

example : ((Session.new 4 .webTransport).run (fun _ => true)
    [.arrive (.headers 200 false [] false),
      .arrive (.content [0x68, 0x43, 5, 0, 0, 0, 9, 0x78] true), .peerReset 4]) =
    ([.started 200, .ended (.clean 9 [0x78])],
      ⟨4, .webTransport, .done, ⟨.getType {}, 0x2843, 5⟩, ⟨[], true⟩, true⟩) := by decide +kernel

example : ((Session.new 4 .connectUdp).run (fun _ => true)
    [.arrive (.headers 403 true [] false), .peerReset 3]).1 = [.ended (.status 403)] := by
  decide +kernel

end Neqo.Sess
