import Verif.Life.Lemmas

/-! C89: how a connection closes down. -/
namespace Neqo.Life

open Conn

/-- A history that can happen. -/
def Reached (h : Hist) : Prop := ∃ client ops, (Hist.new client).run ops = .ok h

/-- The states that were announced to the application, the newest first. -/
def announced (c : Conn) : List St := c.told.filterMap (fun | .state s => some s | .newStream => none)

/-- A CONNECTION_CLOSE was sent. -/
def isClose : Out → Bool
  | .close _ => true
  | _ => false

/-- Nothing was sent. -/
def isNone : Out → Bool
  | .none => true
  | _ => false

/-- The application closes. -/
def appCloses : Op → Bool
  | .close .. => true
  | _ => false

/-- A datagram arrives. -/
def arrives : Op → Bool
  | .input .. => true
  | _ => false

theorem Hist.step_ok {h h' : Hist} {op} (hs : h.step op = .ok h') :
    ∃ o, h.c.step op = .ok (h'.c, o) ∧ h'.ops = op :: h.ops ∧ h'.sent = o :: h.sent := by
  unfold Hist.step at hs
  split at hs
  · cases hs
  · rename_i h1; cases hs; exact ⟨_, h1, rfl, rfl⟩

theorem Hist.run_induct {Q : Hist → Prop} (hstep : ∀ {h h' op}, Q h → h.step op = .ok h' → Q h') :
    ∀ {ops h h'}, Q h → h.run ops = .ok h' → Q h'
  | [], _, _, hq, hr => by cases hr; exact hq
  | op :: ops, h, h', hq, hr => by
    unfold Hist.run at hr
    split at hr
    · cases hr
    · rename_i h1; exact Hist.run_induct hstep (hstep hq h1) hr

/-! ### Forward only -/

/-- The state does not go back: what the application sees moves only forward, except that Version Negotiation
starts a connection again that has not heard from the server. -/
theorem C89_forward {h h' : Hist} {op} (hs : h.step op = .ok h') :
    h.c.st.place ≤ h'.c.st.place ∨ h.c.st.place ≤ 1 ∧ h.c.client = true := by
  obtain ⟨o, h1, _⟩ := Hist.step_ok hs
  have k : Keeps (fun c => (h.c.st.place ≤ c.st.place ∧ (c.client = h.c.client)) ∨
      (h.c.st.place ≤ 1 ∧ h.c.client = true)) True := by
    refine ⟨?_, ?_, ?_, ?_, ?_, ?_⟩
    · rintro c c' s (⟨hp, hc⟩ | hp) hset
      · have := setState_place hset
        refine .inl ⟨Nat.le_trans hp this.1, ?_⟩
        rcases setState_ok hset with ⟨_, rfl⟩ | ⟨_, rfl, _⟩ <;> exact hc
      · exact .inr hp
    · rintro c s _ hp; exact hp
    · rintro c _ _ hp; exact hp
    · rintro c hp; exact hp
    · rintro c hp _; exact hp
    · rintro c (⟨hp, hc⟩ | hp) hw hcl
      · right
        rw [hw] at hp
        exact ⟨hp, by rw [← hc]; exact hcl⟩
      · exact .inr hp
  rcases k.step (fun _ => trivial) (.inl ⟨Nat.le_refl _, rfl⟩) h1 with hh | hh
  · exact .inl hh.1
  · exact .inr hh

/-- Each announcement tells of a later state than the one before, and the newest tells the present state. -/
theorem C89_told {h : Hist} (hr : Reached h) :
    (announced h.c).Pairwise (fun new old => old.lt new = true) ∧
    ((announced h.c).head?.getD .init) = h.c.st := by
  obtain ⟨client, ops, hr⟩ := hr
  have k : Keeps (fun c => (announced c).Pairwise (fun new old => old.lt new = true) ∧
      ((announced c).head?.getD .init) = c.st) True := by
    refine ⟨?_, ?_, ?_, ?_, ?_, ?_⟩
    · rintro c c' s ⟨h1, h2⟩ hset
      rcases setState_ok hset with ⟨hlt, rfl⟩ | ⟨_, rfl, _⟩
      · have ha : announced { c with
            st := s, streams := if s.isClosed then 0 else c.streams, told := .state s :: c.told } =
            s :: announced c := rfl
        rw [ha]
        refine ⟨List.pairwise_cons.mpr ⟨fun a hm => ?_, h1⟩, rfl⟩
        cases hl : announced c with
        | nil => rw [hl] at hm; cases hm
        | cons b l =>
          rw [hl] at hm h1 h2
          have hb : b = c.st := h2
          rcases List.mem_cons.mp hm with rfl | hm
          · rw [hb]; exact hlt
          · exact St.lt_trans ((List.pairwise_cons.mp h1).1 a hm) (by rw [hb]; exact hlt)
      · exact ⟨h1, h2⟩
    · rintro c s _ hp; exact hp
    · rintro c _ _ hp; exact hp
    · rintro c hp; exact hp
    · rintro c hp _; exact hp
    · rintro c _ _ _; exact ⟨List.Pairwise.nil, rfl⟩
  refine Hist.run_induct (Q := fun h => (announced h.c).Pairwise (fun new old => old.lt new = true) ∧
      ((announced h.c).head?.getD .init) = h.c.st) ?_ ⟨List.Pairwise.nil, rfl⟩ hr
  intro h h' op hq hs
  obtain ⟨o, h1, _⟩ := Hist.step_ok hs
  exact k.step (fun _ => trivial) hq h1

/-! ### What happens to a connection that is closed -/

theorem closed_cases {s : St} (h : s.isClosed = true) :
    (∃ r t, s = .closing r t) ∨ (∃ r t, s = .draining r t) ∨ ∃ r, s = .closed r := by
  cases s <;> simp [St.isClosed] at *

/-- What a datagram does to a closed connection. -/
theorem input_closed {c : Conn} (hc : c.st.isClosed = true) (v r now t ps) :
    c.input v r now t ps = .ok c ∨
    (c.st.place = 6 ∧ c.input v r now t ps = .ok { c with sig := c.sig.sendClose }) := by
  have hcon : c.st.isConnected = false := by
    cases hs : c.st <;> simp [hs, St.isClosed, St.isConnected] at *
  have hw : c.st ≠ .waitInitial := by intro h; rw [h] at hc; cases hc
  have hi : c.st ≠ .init := by intro h; rw [h] at hc; cases hc
  have hreset : ∀ (s : Sig) f, { c with sig := s }.checkReset v r t f = .ok ({ c with sig := s }, none) := by
    intro s f
    simp [checkReset, hcon]
  have hreset' : ∀ f, c.checkReset v r t f = .ok (c, none) := fun f => hreset c.sig f
  unfold Conn.input
  cases ps with
  | nil => left; simp [packets, hreset', absorb]
  | cons p ps =>
    unfold packets
    cases p with
    | garbage => left; simp [preprocess, hreset', absorb]
    | «foreign» => left; simp [preprocess, hreset', absorb]
    | vn a b => left; simp [preprocess, hw, hreset', absorb]
    | retry b => left; simp [preprocess, hw, hreset', absorb]
    | other => left; simp [preprocess, hreset', absorb]
    | normal i f valid b =>
      have hpre : c.preprocess (.normal i f valid b) = .ok (c.byState valid) := by
        simp [preprocess, hi]
      rw [hpre]
      rcases closed_cases hc with ⟨r', t', hs⟩ | ⟨r', t', hs⟩ | ⟨r', hs⟩
      · right
        have hb : c.byState valid = ({ c with sig := c.sig.sendClose }, .next) := by
          simp [byState, hs]
        rw [hb]
        refine ⟨by simp [hs, St.place], ?_⟩
        dsimp only
        rw [hreset]
        rfl
      · left
        have hb : c.byState valid = (c, .next) := by simp [byState, hs]
        rw [hb]
        dsimp only
        rw [hreset']
        rfl
      · left
        have hb : c.byState valid = (c, .next) := by simp [byState, hs]
        rw [hb]
        dsimp only
        rw [hreset']
        rfl

theorem capture_closed {c : Conn} (hc : c.st.isClosed = true) (v now e) : c.capture v now e = .ok c := by
  unfold capture
  cases hs : c.st <;> first | rfl | (rw [hs] at hc; cases hc)

theorem absorb_closed {c : Conn} (hc : c.st.isClosed = true) (v now e) : c.absorb v now e = .ok c := by
  cases e with
  | none => rfl
  | some e => exact capture_closed hc v now e

/-- The timers of a closed connection: nothing, or the connection is over. -/
theorem before_closed {c : Conn} (hc : c.st.isClosed = true) (v now t f l) :
    c.before v now t f l = .ok (some c) ∨
    ∃ r, c.st.place < 8 ∧ (c.st.reason = some r ∨ r = .transport idleTimeout ∧ t.idle = true) ∧
      c.before v now t f l = .ok (some { c with st := .closed r, streams := 0, told := .state (.closed r) :: c.told }) := by
  have hset : ∀ r, c.st.place < 8 → c.setState (.closed r) =
      .ok { c with st := .closed r, streams := 0, told := .state (.closed r) :: c.told } := by
    intro r hp
    rw [setState_lt (by simpa [St.place] using hp)]
    rfl
  have hrest : c.st.isClosing = true → c.timerRest v now t = .ok c ∨
      (t.idle = true ∧ c.timerRest v now t = c.setState (.closed (.transport idleTimeout))) := by
    intro h
    unfold timerRest
    by_cases hi : t.idle = true
    · right; exact ⟨hi, by rw [if_pos hi]⟩
    · left; rw [if_neg hi, if_pos h]
  unfold before
  cases hs : c.st with
  | closing r t' =>
    have hp : c.st.place < 8 := by rw [hs]; simp [St.place]
    simp only [processTimer, hs]
    by_cases hle : t' ≤ now
    · right
      rw [if_pos hle, hset r hp]
      exact ⟨r, by simp [St.place], .inl rfl, rfl⟩
    · rw [if_neg hle]
      rcases hrest (by rw [hs]; rfl) with h | ⟨hi, h⟩
      · left; rw [h]; rfl
      · right; rw [h, hset _ hp]
        exact ⟨_, by simp [St.place], .inr ⟨rfl, hi⟩, rfl⟩
  | draining r t' =>
    have hp : c.st.place < 8 := by rw [hs]; simp [St.place]
    simp only [processTimer, hs]
    by_cases hle : t' ≤ now
    · right
      rw [if_pos hle, hset r hp]
      exact ⟨r, by simp [St.place], .inl rfl, rfl⟩
    · rw [if_neg hle]
      rcases hrest (by rw [hs]; rfl) with h | ⟨hi, h⟩
      · left; rw [h]; rfl
      · right; rw [h, hset _ hp]
        exact ⟨_, by simp [St.place], .inr ⟨rfl, hi⟩, rfl⟩
  | closed r =>
    left
    simp only [processTimer, hs]
    rfl
  | _ => rw [hs] at hc; cases hc

/-- The output of a closed connection. -/
theorem output_closed {c : Conn} (hc : c.st.isClosed = true) (v now w) :
    ∃ o, c.output v now w = .ok ({ c with sig := c.sig.closeFrame.1 }, o) ∧
      (o = .none ∨ ∃ r, c.sig.closeFrame.2 = some r ∧ o = .close r) ∧
      (w.temporary = false → w.result = .ok true → ∀ r, c.sig.closeFrame.2 = some r → o = .close r) := by
  unfold output
  rw [if_pos hc]
  split
  · rename_i sig h
    rw [h]
    exact ⟨_, rfl, .inl rfl, by intro _ _ r hr; cases hr⟩
  · rename_i sig r h
    rw [h]
    split
    · exact ⟨_, rfl, .inr ⟨r, rfl, rfl⟩, by intro _ _ r' hr; cases hr; rfl⟩
    · rename_i h2
      refine ⟨_, rfl, .inl rfl, ?_⟩
      intro h3 h4; rw [h3, h4] at h2; cases h2
    · rename_i e h2
      have hcl : ({ c with sig := sig } : Conn).st.isClosed = true := hc
      rw [capture_closed hcl]
      refine ⟨_, rfl, .inl rfl, ?_⟩
      intro h3 h4; rw [h3, h4] at h2; cases h2

/-- A signal that waits to be sent. -/
def waits : Sig → Nat
  | .closing _ | .draining _ => 1
  | _ => 0

/-- The reason in the CONNECTION_CLOSE that is kept. -/
def kept : Sig → Option Reason
  | .closing r | .draining r | .closeSent (some r) => some r
  | _ => none

/-- A step of a closed connection. -/
structure Quiet (c c' : Conn) (op : Op) (o : Out) : Prop where
  closed : c'.st.isClosed = true
  place : c.st.place ≤ c'.st.place
  streams : c'.streams ≤ c.streams
  told : ∃ l, c'.told = l ++ c.told ∧ ∀ e ∈ l, ∃ s, e = .state s
  out : o = .none ∨ ∃ r, kept c.sig = some r ∧ o = .close r
  count : waits c'.sig + (if isClose o then 1 else 0) ≤
    waits c.sig + (if arrives op ∧ c.st.place = 6 then 1 else 0) + (if appCloses op then 1 else 0)
  reset : c.sig = .reset → c'.sig = .reset ∧ o = .none
  same : appCloses op = false → kept c'.sig = kept c.sig ∨ kept c'.sig = none
  reason : appCloses op = false → c'.st = c.st ∨ c'.st.place = 8 ∧
    (c'.st.reason = c.st.reason ∨ c'.st.reason = some (.transport idleTimeout))

theorem closed_not_connected {s : St} (h : s.isClosed = true) : s.isConnected = false := by
  cases s <;> simp [St.isClosed, St.isConnected] at *

theorem quiet {c c' : Conn} {op o} (hc : c.st.isClosed = true) (h : c.step op = .ok (c', o)) : Quiet c c' op o := by
  have refl : ∀ {op}, Quiet c c op .none := by
    intro op
    exact ⟨hc, Nat.le_refl _, Nat.le_refl _, ⟨[], rfl, by simp⟩, .inl rfl, by simp [isClose]; omega,
      fun h => ⟨h, rfl⟩, fun _ => .inl rfl, fun _ => .inl rfl⟩
  cases op with
  | close v now code =>
    obtain ⟨a, ha, hb⟩ := map_eq_ok h
    cases hb
    have hw : ∀ s : Sig, waits s ≤ 1 := by intro s; cases s <;> simp [waits]
    have hset : ∀ (sig : Sig) (s : St), s.isClosed = true → (c.sig = .reset → sig = .reset) →
        { c with sig := sig }.setState s = .ok c' → Quiet c c' (.close v now code) .none := by
      intro sig s hs hsig hset
      have hpl := setState_place hset
      have hsig' : c'.sig = sig := by
        rcases setState_ok hset with ⟨_, rfl⟩ | ⟨_, rfl, _⟩ <;> rfl
      refine ⟨hpl.2.1 hs, hpl.1, ?_, ?_, .inl rfl, ?_, ?_, by simp [appCloses], by simp [appCloses]⟩
      · rcases setState_ok hset with ⟨_, rfl⟩ | ⟨_, rfl, _⟩
        · simp [hs]
        · exact Nat.le_refl _
      · rcases setState_ok hset with ⟨_, rfl⟩ | ⟨_, rfl, _⟩
        · exact ⟨[.state s], rfl, by simp⟩
        · exact ⟨[], rfl, by simp⟩
      · have := hw c'.sig
        simp [isClose, appCloses]; omega
      · intro h; exact ⟨by rw [hsig']; exact hsig h, rfl⟩
    unfold Conn.close at ha
    split at ha
    · exact hset _ _ rfl (by intro h; rw [h]; rfl) ha
    · exact hset c.sig _ rfl id ha
  | authenticated v now r fail =>
    obtain ⟨a, ha, hb⟩ := map_eq_ok h
    cases hb
    unfold Conn.authenticated at ha
    split at ha
    · rw [absorb_closed hc] at ha; cases ha; exact refl
    · split at ha
      · cases ha
      · rename_i f l c1 e h1
        unfold complete at h1
        rw [if_neg (by rw [closed_not_connected hc]; simp)] at h1
        unfold setConnected at h1
        split at h1
        · cases h1; rw [absorb_closed hc] at ha; cases ha; exact refl
        · exfalso
          have : c.setState .connected = .error .panic := by
            unfold setState
            have h6 : 6 ≤ c.st.place := (St.isClosed_iff _).mp hc
            have hlt : c.st.lt .connected = false := by
              cases hs : c.st <;> simp [hs, St.lt, St.place] at *
            rw [hlt]
            have : St.place .connected ≠ c.st.place := by show 4 ≠ _; omega
            simp [this, St.isClosing]
          rw [this] at h1; cases h1
  | input v r now t ps =>
    obtain ⟨a, ha, hb⟩ := map_eq_ok h
    cases hb
    rcases input_closed hc v r now t ps with h1 | ⟨h6, h1⟩
    · rw [h1] at ha; cases ha; exact refl
    · rw [h1] at ha; cases ha
      refine ⟨hc, Nat.le_refl _, Nat.le_refl _, ⟨[], rfl, by simp⟩, .inl rfl, ?_, ?_, ?_, fun _ => .inl rfl⟩
      · have : waits (c.sig.sendClose) ≤ waits c.sig + 1 := by
          cases hs : c.sig with
          | closeSent o => cases o <;> simp [Sig.sendClose, waits]
          | _ => simp [Sig.sendClose, waits]
        simp [isClose, arrives, h6, appCloses]; exact this
      · intro h; exact ⟨by show c.sig.sendClose = _; rw [h]; rfl, rfl⟩
      · intro _; left
        show kept c.sig.sendClose = _
        cases hs : c.sig with
        | closeSent o => cases o <;> rfl
        | _ => rfl
  | output v now t f l w =>
    simp only [Conn.step, Conn.processOutput] at h
    have fin : ∀ {c1 : Conn}, c1.st.isClosed = true → c1.sig = c.sig → c.st.place ≤ c1.st.place →
        c1.streams ≤ c.streams → (∃ l, c1.told = l ++ c.told ∧ ∀ e ∈ l, ∃ s, e = .state s) →
        (c1.st = c.st ∨ c1.st.place = 8 ∧
          (c1.st.reason = c.st.reason ∨ c1.st.reason = some (.transport idleTimeout))) →
        c1.output v now w = .ok (c', o) → Quiet c c' (.output v now t f l w) o := by
      intro c1 hc1 hsig hpl hst htold hreason ho
      obtain ⟨o', h1, h2, _⟩ := output_closed hc1 v now w
      rw [h1] at ho
      cases ho
      rw [hsig] at h2
      have hk : ∀ r, c.sig.closeFrame.2 = some r → kept c.sig = some r := by
        intro r hr
        cases hs : c.sig <;> simp [hs, Sig.closeFrame, kept] at *
        · exact hr
        · exact hr
      refine ⟨hc1, hpl, hst, htold, ?_, ?_, ?_, ?_, fun _ => hreason⟩
      · rcases h2 with h2 | ⟨r, h3, h4⟩
        · exact .inl h2
        · exact .inr ⟨r, hk r h3, h4⟩
      · show waits c1.sig.closeFrame.1 + _ ≤ _
        rw [hsig]
        rcases h2 with rfl | ⟨r, h3, rfl⟩
        · have : waits c.sig.closeFrame.1 ≤ waits c.sig := by
            cases c.sig <;> simp [Sig.closeFrame, waits]
          simp [isClose, arrives, appCloses]; exact this
        · cases hs : c.sig <;> simp [hs, Sig.closeFrame] at h3 <;>
            simp [Sig.closeFrame, waits, isClose, arrives, appCloses]
      · intro hr
        show c1.sig.closeFrame.1 = _ ∧ _
        rw [hsig]
        rw [hr] at h2 ⊢
        refine ⟨rfl, ?_⟩
        rcases h2 with h2 | ⟨r, h3, _⟩
        · exact h2
        · cases h3
      · intro _
        show kept c1.sig.closeFrame.1 = _ ∨ kept c1.sig.closeFrame.1 = _
        rw [hsig]
        cases hs : c.sig with
        | closing r => exact .inl rfl
        | draining r => exact .inr rfl
        | closeSent r => exact .inl rfl
        | idle => exact .inl rfl
        | done => exact .inl rfl
        | reset => exact .inl rfl
    rcases before_closed hc v now t f l with h1 | ⟨r, hpl, hr, h1⟩
    · rw [h1] at h
      exact fin hc rfl (Nat.le_refl _) (Nat.le_refl _) ⟨[], rfl, by simp⟩ (.inl rfl) h
    · rw [h1] at h
      refine fin (c1 := { c with st := .closed r, streams := 0, told := .state (.closed r) :: c.told }) rfl rfl
        ?_ (Nat.zero_le _) ⟨[.state (.closed r)], rfl, by simp⟩ (.inr ⟨rfl, ?_⟩) h
      · show _ ≤ 8; omega
      · rcases hr with hr | ⟨rfl, _⟩
        · exact .inl hr.symm
        · exact .inr rfl
  | doneLost =>
    cases h
    refine ⟨hc, Nat.le_refl _, Nat.le_refl _, ⟨[], rfl, by simp⟩, .inl rfl, ?_, ?_, ?_, fun _ => .inl rfl⟩
    · have : waits c.sig.handshakeDone ≤ waits c.sig := by cases c.sig <;> simp [Sig.handshakeDone, waits]
      simp [isClose, arrives, appCloses]; exact this
    · intro h; exact ⟨by show c.sig.handshakeDone = _; rw [h]; rfl, rfl⟩
    · intro _; left
      show kept c.sig.handshakeDone = _
      cases hs : c.sig <;> rfl
  | create z room =>
    cases h
    have : c.create z room = (c, false) := by
      unfold create
      cases hs : c.st <;> first | rfl | (rw [hs] at hc; cases hc)
    rw [this]
    exact refl

/-- A connection that is closing, draining or closed never works again. -/
theorem C89_stays_closed {h h' : Hist} {ops} (hc : h.c.st.isClosed = true) (hr : h.run ops = .ok h') :
    h'.c.st.isClosed = true ∧ h.c.st.place ≤ h'.c.st.place := by
  refine Hist.run_induct (Q := fun h' => h'.c.st.isClosed = true ∧ h.c.st.place ≤ h'.c.st.place) ?_
    ⟨hc, Nat.le_refl _⟩ hr
  intro h1 h2 op ⟨q1, q2⟩ hs
  obtain ⟨o, hs, _⟩ := Hist.step_ok hs
  have := quiet q1 hs
  exact ⟨this.closed, Nat.le_trans q2 this.place⟩

/-- No new streams: the application cannot make them, and whatever arrives later does not; it is told of nothing
but further states. -/
theorem C89_no_more_streams {h h' : Hist} {ops} (hc : h.c.st.isClosed = true) (hr : h.run ops = .ok h') :
    (∀ z room, (h'.c.create z room).2 = false) ∧ h'.c.streams ≤ h.c.streams ∧
    ∃ l, h'.c.told = l ++ h.c.told ∧ ∀ e ∈ l, ∃ s, e = .state s := by
  have := Hist.run_induct (Q := fun h' => h'.c.st.isClosed = true ∧ h'.c.streams ≤ h.c.streams ∧
    ∃ l, h'.c.told = l ++ h.c.told ∧ ∀ e ∈ l, ∃ s, e = .state s) ?_
    ⟨hc, Nat.le_refl _, [], rfl, by simp⟩ hr
  · refine ⟨fun z room => ?_, this.2⟩
    have hcl := this.1
    unfold create
    cases hs : h'.c.st <;> first | rfl | (rw [hs] at hcl; cases hcl)
  · intro h1 h2 op ⟨q1, q2, l, hl, hall⟩ hs
    obtain ⟨o, hs, _⟩ := Hist.step_ok hs
    have q := quiet q1 hs
    obtain ⟨l', hl', hall'⟩ := q.told
    refine ⟨q.closed, Nat.le_trans q.streams q2, l' ++ l, by rw [hl', hl, List.append_assoc], ?_⟩
    intro e he
    rcases List.mem_append.mp he with he | he
    · exact hall' e he
    · exact hall e he

/-- Only CONNECTION_CLOSE is sent: at most one when the connection closes, one for each datagram that arrives in
the closing state and one for each time that the application closes. -/
theorem C89_packets {h h' : Hist} {ops} (hc : h.c.st.isClosed = true) (hr : h.run ops = .ok h') :
    ∃ new, h'.sent = new ++ h.sent ∧ (∀ o ∈ new, isNone o = true ∨ isClose o = true) ∧
      new.countP isClose ≤ 1 + ops.countP arrives + ops.countP appCloses := by
  suffices H : ∀ {ops} {h : Hist}, h.c.st.isClosed = true → h.run ops = .ok h' →
      ∃ new, h'.sent = new ++ h.sent ∧ (∀ o ∈ new, isNone o = true ∨ isClose o = true) ∧
      new.countP isClose ≤ waits h.c.sig + ops.countP arrives + ops.countP appCloses by
    obtain ⟨new, h1, h2, h3⟩ := H hc hr
    have : waits h.c.sig ≤ 1 := by cases h.c.sig <;> simp [waits]
    exact ⟨new, h1, h2, by omega⟩
  clear hc hr
  intro ops
  induction ops with
  | nil => intro h _ hr; cases hr; exact ⟨[], rfl, by simp, by simp⟩
  | cons op ops ih =>
    intro h hc hr
    unfold Hist.run at hr
    split at hr
    · cases hr
    · rename_i h1 hs
      obtain ⟨o, hs, _, hsent⟩ := Hist.step_ok hs
      have q := quiet hc hs
      obtain ⟨new, e1, e2, e3⟩ := ih q.closed hr
      refine ⟨new ++ [o], by rw [e1, hsent]; simp, ?_, ?_⟩
      · intro o' ho'
        rcases List.mem_append.mp ho' with ho' | ho'
        · exact e2 o' ho'
        · rw [List.mem_singleton] at ho'
          subst ho'
          rcases q.out with rfl | ⟨r, _, rfl⟩
          · exact .inl rfl
          · exact .inr rfl
      · have := q.count
        have e : List.countP isClose [o] = if isClose o = true then 1 else 0 := by
          rw [List.countP_cons]; simp
        rw [List.countP_append, e, List.countP_cons, List.countP_cons]
        have : (if arrives op = true ∧ h.c.st.place = 6 then 1 else 0) ≤ (if arrives op = true then 1 else 0) := by
          split
          · rename_i hh; rw [if_pos hh.1]; exact Nat.le_refl _
          · exact Nat.zero_le _
        omega

/-- Partial: a connection that drains, because the peer closed it, sends at most one packet whatever arrives.
What is missing is that the application does not close once more, see `C89_close_while_draining_sends`. -/
theorem C89_draining_partial {h h' : Hist} {ops} (hc : 7 ≤ h.c.st.place) (hr : h.run ops = .ok h')
    (ho : ∀ op ∈ ops, appCloses op = false) :
    ∃ new, h'.sent = new ++ h.sent ∧ (∀ o ∈ new, isNone o = true ∨ isClose o = true) ∧
      new.countP isClose ≤ 1 := by
  suffices H : ∀ {ops} {h : Hist}, 7 ≤ h.c.st.place → h.run ops = .ok h' → (∀ op ∈ ops, appCloses op = false) →
      ∃ new, h'.sent = new ++ h.sent ∧ (∀ o ∈ new, isNone o = true ∨ isClose o = true) ∧
      new.countP isClose ≤ waits h.c.sig by
    obtain ⟨new, h1, h2, h3⟩ := H hc hr ho
    have : waits h.c.sig ≤ 1 := by cases h.c.sig <;> simp [waits]
    exact ⟨new, h1, h2, by omega⟩
  clear hc hr ho
  intro ops
  induction ops with
  | nil => intro h _ hr _; cases hr; exact ⟨[], rfl, by simp, by simp⟩
  | cons op ops ih =>
    intro h hc hr ho
    unfold Hist.run at hr
    split at hr
    · cases hr
    · rename_i h1 hs
      obtain ⟨o, hs, _, hsent⟩ := Hist.step_ok hs
      have q := quiet ((St.isClosed_iff _).mpr (by omega)) hs
      obtain ⟨new, e1, e2, e3⟩ := ih (Nat.le_trans hc q.place) hr (fun op hop => ho op (List.mem_cons_of_mem _ hop))
      refine ⟨new ++ [o], by rw [e1, hsent]; simp, ?_, ?_⟩
      · intro o' ho'
        rcases List.mem_append.mp ho' with ho' | ho'
        · exact e2 o' ho'
        · rw [List.mem_singleton] at ho'
          subst ho'
          rcases q.out with rfl | ⟨r, _, rfl⟩
          · exact .inl rfl
          · exact .inr rfl
      · have hcount := q.count
        have h0 : (if arrives op = true ∧ h.c.st.place = 6 then 1 else 0) = 0 := if_neg (by rintro ⟨_, h6⟩; omega)
        rw [h0, ho op List.mem_cons_self] at hcount
        rw [List.countP_append]
        have e : List.countP isClose [o] = if isClose o = true then 1 else 0 := by
          rw [List.countP_cons]; simp
        rw [e]
        simp only [Bool.false_eq_true, if_false] at hcount
        omega

/-- Every CONNECTION_CLOSE has the reason of the first, unless the application closes again. -/
theorem C89_same_reason {h h' : Hist} {ops} (hc : h.c.st.isClosed = true) (hr : h.run ops = .ok h')
    (ho : ∀ op ∈ ops, appCloses op = false) :
    ∃ r new, h'.sent = new ++ h.sent ∧ ∀ o ∈ new, o = .none ∨ o = .close r := by
  suffices H : ∀ {ops} {h : Hist} (r : Reason), h.c.st.isClosed = true → (kept h.c.sig = some r ∨ kept h.c.sig = none) →
      h.run ops = .ok h' → (∀ op ∈ ops, appCloses op = false) →
      ∃ new, h'.sent = new ++ h.sent ∧ ∀ o ∈ new, o = .none ∨ o = .close r by
    cases hk : kept h.c.sig with
    | none =>
      obtain ⟨new, h1, h2⟩ := H (.application 0) hc (.inr hk) hr ho
      exact ⟨_, new, h1, h2⟩
    | some r =>
      obtain ⟨new, h1, h2⟩ := H r hc (.inl hk) hr ho
      exact ⟨r, new, h1, h2⟩
  clear hc hr ho
  intro ops
  induction ops with
  | nil => intro h r _ _ hr _; cases hr; exact ⟨[], rfl, by simp⟩
  | cons op ops ih =>
    intro h r hc hk hr ho
    unfold Hist.run at hr
    split at hr
    · cases hr
    · rename_i h1 hs
      obtain ⟨o, hs, _, hsent⟩ := Hist.step_ok hs
      have q := quiet hc hs
      have hk1 : kept h1.c.sig = some r ∨ kept h1.c.sig = none := by
        rcases q.same (ho op List.mem_cons_self) with e | e
        · rw [e]; exact hk
        · exact .inr e
      obtain ⟨new, e1, e2⟩ := ih r q.closed hk1 hr (fun op hop => ho op (List.mem_cons_of_mem _ hop))
      refine ⟨new ++ [o], by rw [e1, hsent]; simp, ?_⟩
      intro o' ho'
      rcases List.mem_append.mp ho' with ho' | ho'
      · exact e2 o' ho'
      · rw [List.mem_singleton] at ho'
        subst ho'
        rcases q.out with rfl | ⟨r', hr', rfl⟩
        · exact .inl rfl
        · rcases hk with hk | hk
          · rw [hk] at hr'; cases hr'; exact .inr rfl
          · rw [hk] at hr'; cases hr'

/-- Partial: the reason that the application is told stays the same until the connection is over, or is replaced
by an idle timeout.  The rest is false, see `C89_idle_replaces_reason` and `C89_reason_replaced`. -/
theorem C89_reason_partial {h h' : Hist} {op} (hc : h.c.st.isClosed = true) (hs : h.step op = .ok h')
    (ho : appCloses op = false) :
    h'.c.st.reason = h.c.st.reason ∨ h'.c.st = .closed (.transport idleTimeout) := by
  obtain ⟨o, hs, _⟩ := Hist.step_ok hs
  rcases (quiet hc hs).reason ho with e | ⟨h8, e | e⟩
  · exact .inl (by rw [e])
  · exact .inl e
  · right
    cases hst : h'.c.st <;> simp [hst, St.place] at h8
    rw [hst] at e
    injection e with e
    rw [e]

/-! ### How it closes -/

/-- The application closes a connection that has a path: it is told so at once, and the next packet is a
CONNECTION_CLOSE with its code; the closing state lasts three PTOs. -/
theorem C89_close {c : Conn} {v : Env} {now code} (hc : c.st.isClosed = false) (hv : v.path = true)
    (hsig : c.sig ≠ .reset) :
    ∃ c', c.close v now code = .ok c' ∧ c'.st = .closing (.application code) (now + 3 * v.pto) ∧
      c'.told = .state c'.st :: c.told ∧ c'.streams = 0 ∧
      ∀ v' now' w, w.temporary = false → w.result = .ok true →
        ∃ c'', c'.output v' now' w = .ok (c'', .close (.application code)) := by
  have hp : c.st.place < 6 := by
    have := (St.isClosed_iff c.st).mpr
    rw [hc] at this
    apply Nat.lt_of_not_le
    intro h; cases this h
  have hs : { c with sig := c.sig.close (.application code) }.setState
      (.closing (.application code) (now + v.pto * 3)) = _ := setState_lt (by simpa [St.place] using hp)
  have hsc : c.sig.close (.application code) = .closing (.application code) := by
    cases h : c.sig <;> first | rfl | exact absurd h hsig
  refine ⟨{ c with
      sig := .closing (.application code), st := .closing (.application code) (now + v.pto * 3), streams := 0,
      told := .state (.closing (.application code) (now + v.pto * 3)) :: c.told }, ?_, by simp [Nat.mul_comm], rfl,
    rfl, ?_⟩
  · unfold Conn.close
    rw [if_pos hv, hs, hsc]
    rfl
  · intro v' now' w h1 h2
    obtain ⟨o, h3, _, h4⟩ := output_closed (c := { c with
      sig := .closing (.application code), st := .closing (.application code) (now + v.pto * 3), streams := 0,
      told := .state (.closing (.application code) (now + v.pto * 3)) :: c.told }) rfl v' now' w
    rw [h3, h4 h1 h2 (.application code) rfl]
    exact ⟨_, rfl⟩

/-- An error in a packet closes the connection: the frames before it are handled, nothing after it is, and the
peer is told which error it was. -/
theorem C89_error {c : Conn} {v : Env} {r now t n e} {rest : List Fr} {late hv ps init first}
    (hc : c.st.place = 3 ∨ c.st.isConnected = true) (hsig : c.sig ≠ .reset) (he : e ≠ keysExhausted) (hpath : v.path = true) :
    ∃ c', c.input v r now t (.normal init first true
        (.opened (List.replicate n .plain ++ .bad e :: rest) late hv) :: ps) = .ok c' ∧
      c'.st = .closing (.transport e) (r + 3 * v.pto) ∧ c'.sig = .closing (.transport e) ∧
      c'.told = .state c'.st :: c.told ∧ c'.streams = 0 := by
  have hp : c.st.place < 6 := by
    rw [St.isConnected_iff] at hc; omega
  have hcap : c.capture v r e = .ok { c with
      sig := .closing (.transport e), st := .closing (.transport e) (r + v.pto * 3), streams := 0,
      told := .state (.closing (.transport e) (r + v.pto * 3)) :: c.told } := by
    have hsc : c.sig.close (.transport e) = .closing (.transport e) := by
      cases h : c.sig <;> first | rfl | exact absurd h hsig
    have hset : { c with sig := c.sig.close (.transport e) }.setState (.closing (.transport e) (r + v.pto * 3)) = _ :=
      setState_lt (by simpa [St.place] using hp)
    unfold capture
    split
    · rename_i hs; simp [hs, St.place, St.isConnected] at hc
    · rename_i hs; simp [hs, St.place, St.isConnected] at hc
    · rename_i hs; simp [hs, St.place, St.isConnected] at hc
    · rename_i hs; simp [hs, St.place, St.isConnected] at hc
    · rename_i hs; simp [hs, St.place, St.isConnected] at hc
    · rename_i hs; simp [hs, St.place, St.isConnected] at hc
    · simp only [hpath, if_true, if_neg he]; rw [hset, hsc]; simp [St.isClosed]
  have hframes : ∀ n, c.frames v r (List.replicate n .plain ++ .bad e :: rest) = .ok ({ c with
      sig := .closing (.transport e), st := .closing (.transport e) (r + v.pto * 3), streams := 0,
      told := .state (.closing (.transport e) (r + v.pto * 3)) :: c.told }, some e) := by
    intro n
    induction n with
    | zero =>
      show c.frames v r (.bad e :: rest) = _
      unfold frames
      simp only [frame, hcap]
    | succ n ih =>
      rw [List.replicate_succ, List.cons_append]
      unfold frames
      simp only [frame]
      exact ih
  have hpre : ∀ b, c.preprocess (.normal init first true b) = .ok (c, .go) := by
    intro b
    have hni : c.st ≠ .init := by intro h; rw [h] at hc; simp [St.place, St.isConnected] at hc
    unfold preprocess
    dsimp only
    rw [if_neg (by intro h; exact hni h.1)]
    unfold byState
    cases hs : c.st <;> first | rfl | simp [hs, St.place, St.isConnected] at hc
  have hne : List.replicate n Fr.plain ++ .bad e :: rest ≠ [] := by simp
  refine ⟨{ c with
      sig := .closing (.transport e), st := .closing (.transport e) (r + v.pto * 3), streams := 0,
      told := .state (.closing (.transport e) (r + v.pto * 3)) :: c.told }, ?_, by simp [Nat.mul_comm], rfl, rfl, rfl⟩
  unfold Conn.input packets
  rw [hpre]
  simp only [body, processPacket, if_neg hne, hframes]
  rfl

/-- A CONNECTION_CLOSE from the peer: the connection drains and reports whose error it was, with its code. -/
theorem C89_peer_closes {c : Conn} {v : Env} {r now t n app code} {hv init first}
    (hc : c.st.place = 3 ∨ c.st.isConnected = true) :
    ∃ c', c.input v r now t [.normal init first true
        (.opened (List.replicate n .plain ++ [.close app code]) none hv)] = .ok c' ∧
      c'.st = .draining (.transport (if app then peerApplication code else peer code)) (r + 3 * v.pto) ∧
      c'.told = .state c'.st :: c.told ∧ c'.streams = 0 := by
  have hp : c.st.place < 7 := by
    rw [St.isConnected_iff] at hc; omega
  generalize hR : (Reason.transport (if app then peerApplication code else peer code)) = R
  have hset : { c with sig := c.sig.drain R }.setState (.draining R (r + v.pto * 3)) = _ :=
      setState_lt (by simpa [St.place] using hp)
  have hframes : ∀ n, c.frames v r (List.replicate n .plain ++ [.close app code]) = .ok ({ c with
      sig := c.sig.drain R, st := .draining R (r + v.pto * 3), streams := 0,
      told := .state (.draining R (r + v.pto * 3)) :: c.told }, none) := by
    intro n
    induction n with
    | zero =>
      show c.frames v r [.close app code] = _
      unfold frames
      simp only [frame, hR, hset]
      rfl
    | succ n ih =>
      rw [List.replicate_succ, List.cons_append]
      unfold frames
      simp only [frame]
      exact ih
  have hpre : ∀ b, c.preprocess (.normal init first true b) = .ok (c, .go) := by
    intro b
    have hni : c.st ≠ .init := by intro h; rw [h] at hc; simp [St.place, St.isConnected] at hc
    unfold preprocess
    dsimp only
    rw [if_neg (by intro h; exact hni h.1)]
    unfold byState
    cases hs : c.st <;> first | rfl | simp [hs, St.place, St.isConnected] at hc
  have hne : List.replicate n Fr.plain ++ [.close app code] ≠ [] := by simp
  refine ⟨{ c with
      sig := c.sig.drain R, st := .draining R (r + v.pto * 3), streams := 0,
      told := .state (.draining R (r + v.pto * 3)) :: c.told }, ?_, by simp [Nat.mul_comm], rfl, rfl⟩
  unfold Conn.input packets
  rw [hpre]
  simp only [body, processPacket, if_neg hne, hframes]
  rfl

/-- The closing state ends when its time is over, and not before unless the idle timer expires; until then the
connection asks to be called at that time. -/
theorem C89_ends {c : Conn} {v now t f l w} {r timeout}
    (hs : c.st = .closing r timeout ∨ c.st = .draining r timeout) :
    ∃ c' o, c.processOutput v now t f l w = .ok (c', o) ∧
      (timeout ≤ now → c'.st = .closed r ∧ c'.callback now [] = none) ∧
      (now < timeout → t.idle = false →
        c'.st = c.st ∧ c'.callback now [] = some (timeout - now) ∧ 0 < timeout - now) := by
  have hc : c.st.isClosed = true := by rcases hs with h | h <;> rw [h] <;> rfl
  have hbefore : c.before v now t f l = (c.processTimer v now t).map some := by
    unfold before; rcases hs with h | h <;> simp only [h]
  by_cases hle : timeout ≤ now
  · have h1 : c.processTimer v now t =
        .ok { c with st := .closed r, streams := 0, told := .state (.closed r) :: c.told } := by
      have hset : c.setState (.closed r) = _ := setState_lt (by rcases hs with h | h <;> simp [h, St.place])
      unfold processTimer
      rcases hs with h | h <;> simp only [h, if_pos hle, hset] <;> rfl
    obtain ⟨o, h2, _⟩ := output_closed (c := { c with st := .closed r, streams := 0, told := .state (.closed r) :: c.told })
      rfl v now w
    refine ⟨{ c with st := .closed r, streams := 0, told := .state (.closed r) :: c.told, sig := c.sig.closeFrame.1 },
      o, ?_, fun _ => ⟨rfl, rfl⟩, fun h => absurd h (by omega)⟩
    unfold processOutput
    rw [hbefore, h1]
    exact h2
  · by_cases hi : t.idle = true
    · have h1 : ∃ c1, c.processTimer v now t = .ok c1 ∧ c1.st.isClosed = true := by
        have hset : c.setState (.closed (.transport idleTimeout)) = _ :=
          setState_lt (by rcases hs with h | h <;> simp [h, St.place])
        unfold processTimer
        rcases hs with h | h <;> simp only [h, if_neg hle, timerRest, hi, if_true, hset] <;> exact ⟨_, rfl, rfl⟩
      obtain ⟨c1, h1, hc1⟩ := h1
      obtain ⟨o, h2, _⟩ := output_closed hc1 v now w
      refine ⟨{ c1 with sig := c1.sig.closeFrame.1 }, o, ?_, fun h => absurd h hle,
        fun _ h => absurd (hi.symm.trans h) (by simp)⟩
      unfold processOutput
      rw [hbefore, h1]
      exact h2
    · have h1 : c.processTimer v now t = .ok c := by
        unfold processTimer
        rcases hs with h | h <;>
          simp only [h, if_neg hle, timerRest, if_neg hi, St.isClosing, if_true]
      obtain ⟨o, h2, _⟩ := output_closed hc v now w
      refine ⟨{ c with sig := c.sig.closeFrame.1 }, o, ?_, fun h => absurd h hle, fun hlt _ => ⟨rfl, ?_, by omega⟩⟩
      · unfold processOutput
        rw [hbefore, h1]
        exact h2
      · unfold callback
        rcases hs with h | h <;> simp only [h]

/-! ### Stateless reset -/

/-- A datagram that ends in the token of the peer, and of which not even the first packet can be handled, ends a
connection that is established: it drains. -/
theorem C89_reset {c : Conn} {v : Env} {r now init first valid discarded ps}
    (hc : c.st.isConnected = true) :
    (∃ c', c.input v r now true (.normal init first false .pending :: ps) = .ok c' ∧
      c'.st = .draining (.transport statelessReset) (r + 3 * v.pto) ∧ c'.sig = .reset ∧
      c'.told = .state c'.st :: c.told) ∧
    (valid = true → ∃ c', c.input v r now true (.normal init first valid (.failed true discarded) :: ps) = .ok c' ∧
      c'.st = .draining (.transport statelessReset) (r + 3 * v.pto) ∧ c'.sig = .reset ∧
      c'.told = .state c'.st :: c.told) := by
  have hp : c.st.place < 7 := by rw [St.isConnected_iff] at hc; omega
  have hreset : ∀ s, { c with sig := s }.checkReset v r true true = .ok ({ c with
      sig := .reset, st := .draining (.transport statelessReset) (r + v.pto * 3), streams := 0,
      told := .state (.draining (.transport statelessReset) (r + v.pto * 3)) :: c.told }, some statelessReset) := by
    intro s
    have hset : { c with sig := Sig.reset }.setState (.draining (.transport statelessReset) (r + v.pto * 3)) = _ :=
      setState_lt (by simpa [St.place] using hp)
    unfold checkReset
    simp only [hc, Bool.and_true, if_true]
    rw [hset]
    rfl
  have hpre : ∀ va b, c.preprocess (.normal init first va b) = .ok (c, if va then .go else .next) := by
    intro va b
    have hni : c.st ≠ .init := by intro h; rw [h] at hc; cases hc
    unfold preprocess
    dsimp only
    rw [if_neg (by intro h; exact hni h.1)]
    unfold byState
    cases hs : c.st <;> first | rfl | (rw [hs] at hc; cases hc)
  let d : Conn := { c with
      sig := .reset, st := .draining (.transport statelessReset) (r + v.pto * 3), streams := 0,
      told := .state (.draining (.transport statelessReset) (r + v.pto * 3)) :: c.told }
  constructor
  · refine ⟨d, ?_, ?_⟩
    · unfold Conn.input packets
      rw [hpre]
      have := hreset c.sig
      simp only [Bool.false_eq_true, if_false]
      rw [this]
      rfl
    · exact ⟨by simp [d, Nat.mul_comm], rfl, rfl⟩
  · rintro rfl
    refine ⟨d, ?_, ?_⟩
    · unfold Conn.input packets
      rw [hpre]
      have hd : ∃ s, (if discarded = true then c.keysDiscarded else c) = { c with sig := s } := by
        cases discarded
        · exact ⟨c.sig, rfl⟩
        · simp only [if_true]
          unfold keysDiscarded
          split
          · exact ⟨_, rfl⟩
          · exact ⟨c.sig, rfl⟩
      obtain ⟨s, hd⟩ := hd
      simp only [if_true, body, hd, hreset]
      rfl
    · exact ⟨by simp [d, Nat.mul_comm], rfl, rfl⟩

/-- Nothing but such a datagram does that: the token must be at the end of the datagram, or of its first packet if
that cannot be decrypted. -/
theorem C89_reset_only {h h' : Hist} {op} (h0 : h.c.sig ≠ .reset) (hs : h.step op = .ok h')
    (h1 : h'.c.sig = .reset) :
    ∃ v r now token ps, op = .input v r now token ps ∧ h.c.st.isClosed = false ∧
      (token = true ∨ ∃ init first valid d rest, ps = .normal init first valid (.failed true d) :: rest) := by
  obtain ⟨o, hstep, _⟩ := Hist.step_ok hs
  have k : Keeps (fun c => c.sig ≠ .reset ∨ mayReset op = true) (mayReset op = true) := by
    refine ⟨?_, ?_, ?_, ?_, ?_, ?_⟩
    · rintro c c' s hp hset
      rcases setState_ok hset with ⟨_, rfl⟩ | ⟨_, rfl, _⟩ <;> exact hp
    · rintro c s hs (hp | hp)
      · exact .inl (hs hp)
      · exact .inr hp
    · rintro c hf _ _; exact .inr hf
    · rintro c hp; exact hp
    · rintro c hp _; exact hp
    · rintro c _ _ _; exact .inl (by simp [Conn.new])
  have hm : mayReset op = true := by
    rcases k.step id (.inl h0) hstep with hh | hh
    · exact absurd h1 hh
    · exact hh
  cases op with
  | input v r now token ps =>
    refine ⟨v, r, now, token, ps, rfl, ?_, ?_⟩
    · cases hcl : h.c.st.isClosed with
      | false => rfl
      | true =>
        exfalso
        obtain ⟨a, ha, hb⟩ := map_eq_ok hstep
        have ha' : h'.c = a := by cases hb; rfl
        rcases input_closed hcl v r now token ps with e | ⟨_, e⟩
        · rw [e] at ha; cases ha; rw [ha'] at h1; exact h0 h1
        · rw [e] at ha; cases ha; rw [ha'] at h1; exact send_ne h0 h1
    · cases token with
      | true => exact .inl rfl
      | false =>
        right
        cases ps with
        | nil => simp [mayReset, tokenIn] at hm
        | cons p ps =>
          cases p with
          | normal init first valid b =>
            cases b with
            | failed t d =>
              cases t with
              | true => exact ⟨_, _, _, _, _, rfl⟩
              | false => simp [mayReset, tokenIn, Pkt.token, Body.token] at hm
            | _ => simp [mayReset, tokenIn, Pkt.token, Body.token] at hm
          | _ => simp [mayReset, tokenIn, Pkt.token] at hm
  | _ => cases hm

/-- After a stateless reset nothing is ever sent, whatever happens. -/
theorem C89_reset_silent {h h' : Hist} {ops} (hc : h.c.st.isClosed = true) (hsig : h.c.sig = .reset)
    (hr : h.run ops = .ok h') : ∃ n, h'.sent = List.replicate n Out.none ++ h.sent := by
  have := Hist.run_induct (Q := fun h' => h'.c.st.isClosed = true ∧ h'.c.sig = .reset ∧
    ∃ n, h'.sent = List.replicate n Out.none ++ h.sent) ?_ ⟨hc, hsig, 0, rfl⟩ hr
  · exact this.2.2
  · intro h1 h2 op ⟨q1, q2, n, hn⟩ hs
    obtain ⟨o, hs, _, hsent⟩ := Hist.step_ok hs
    have q := quiet q1 hs
    obtain ⟨e1, e2⟩ := q.reset q2
    exact ⟨q.closed, e1, n + 1, by rw [hsent, hn, e2]; rfl⟩

end Neqo.Life
