import Verif.SlowStart.Model

/-!
# C99: HyStart++ leaves slow start after the delay has gone up and stayed up
-/
namespace Neqo.Ss

/-! ## Specification -/

/-- What happens on a connection: a packet is sent (`told`: it is in flight and sent in slow start), packets are
acknowledged, the largest being the one given, with the latest round-trip time, persistent congestion. -/
inductive HEv where
  | sent (pn : Nat) (told : Bool)
  | ack (rtt largest : Nat)
  | reset
  deriving DecidableEq, Repr

/-- The code. -/
def Hy.step (h : Hy) : HEv → Hy × Bool
  | .sent pn told => (if told then h.onSent pn else h, false)
  | .ack rtt largest => h.onAcked rtt largest
  | .reset => (h.reset, false)

/-- Events, the newest first: packet numbers increase and what is acknowledged was sent. -/
def HLegal (tr : List HEv) : HEv → Prop
  | .sent pn _ => ∀ q b, .sent q b ∈ tr → q < pn
  | .ack _ largest => ∃ b, .sent largest b ∈ tr
  | .reset => True

/-- The states that can be reached, with the events so far, the newest first. -/
inductive HReached : Hy → List HEv → Prop
  | new (paced mode) : HReached { paced := paced, mode := mode } []
  | step {h tr e} : HReached h tr → HLegal tr e → HReached (h.step e).1 (e :: tr)

/-- The round-trip times measured. -/
def rtts (tr : List HEv) : List Nat := tr.filterMap fun | .ack rtt _ => some rtt | _ => none

/-- The increase that matters: an eighth, but from 4 to 16 ms. -/
def raise (l : Nat) : Nat := if l / 8 < 4000000 then 4000000 else if 16000000 < l / 8 then 16000000 else l / 8

/-- The latest event makes it plain that the delay has gone up: over some time, at least eight round-trip times were
measured, all of which are longer than the shortest one of the time before that, by the increase that matters. -/
def Raised (tr : List HEv) : Prop :=
  ∃ cur prev rest, tr = cur ++ prev ++ rest ∧ .reset ∉ cur ++ prev ∧ 8 ≤ (rtts cur).length ∧
    ∃ l ∈ rtts prev, (∀ x ∈ rtts prev, l ≤ x) ∧ ∀ x ∈ rtts cur, l + raise l ≤ x

/-- A number of round trips one after the other: each is a packet that was sent after the trips before it, and its
acknowledgement. -/
inductive Trips : Nat → List HEv → Prop
  | zero (tr) : Trips 0 tr
  | later {n tr} (e) : Trips n tr → Trips n (e :: tr)
  | trip {n tr} (mid rtt pn b) : Trips n tr → Trips (n + 1) (.ack rtt pn :: (mid ++ .sent pn b :: tr))

/-! ## Lemmas -/

theorem raise_eq (l : Nat) : Hy.thresh l = raise l := by
  unfold Hy.thresh raise
  rw [Nat.max_def, Nat.min_def]
  split <;> split <;> split <;> (try split) <;> omega

theorem Trips.append {n : Nat} {tr : List HEv} (h : Trips n tr) : ∀ l : List HEv, Trips n (l ++ tr) := by
  intro l
  induction l with
  | nil => exact h
  | cons e l ih => exact .later e ih

theorem rtts_append (a b : List HEv) : rtts (a ++ b) = rtts a ++ rtts b := List.filterMap_append

theorem HReached.ordered {h : Hy} {tr : List HEv} (hr : HReached h tr) : ∀ {a c : List HEv} {w p : Nat} {b b' : Bool}, tr = a ++ .sent w b :: c → .sent p b' ∈ c → p < w := by
  induction hr with
  | new => intro a c w p b b' he _; cases a <;> cases he
  | @step h tr e _ hl ih =>
    intro a c w p b b' he hp
    cases a with
    | nil =>
      injection he with e1 e2
      subst e1 e2
      exact hl p b' hp
    | cons x a =>
      injection he with e1 e2
      exact ih e2 hp

/-- A packet numbered from `w` on was sent with it or after it. -/
theorem HReached.after {h : Hy} {tr a c : List HEv} {w p : Nat} {b b' : Bool} (hr : HReached h tr) (he : tr = a ++ .sent w b :: c) (hp : .sent p b' ∈ tr) (hle : w ≤ p) :
    ∃ x y b'', tr = x ++ .sent p b'' :: (y ++ c) := by
  have hp' := hp
  rw [he] at hp
  rcases List.mem_append.mp hp with hp | hp
  · obtain ⟨x, y, hxy⟩ := List.append_of_mem hp
    exact ⟨x, y ++ [.sent w b], b', by rw [he, hxy]; simp⟩
  · rcases List.mem_cons.mp hp with hp | hp
    · injection hp with e1 e2
      subst e1
      exact ⟨a, [], b, he⟩
    · have := hr.ordered he hp
      omega

/-- What is known of the state. -/
structure HInv (h : Hy) (tr : List HEv) : Prop where
  round : ∃ cur prev rest, tr = cur ++ prev ++ rest ∧ .reset ∉ cur ++ prev ∧ h.samples ≤ (rtts cur).length ∧
    (∀ c, h.cur = some c → ∀ x ∈ rtts cur, c ≤ x) ∧ (∀ l, h.last = some l → l ∈ rtts prev ∧ ∀ x ∈ rtts prev, l ≤ x) ∧
    (h.cur = none → rtts cur = []) ∧ (∀ c, h.cur = some c → c ∈ rtts cur)
  zero : h.css = none → h.rounds = 0
  window : ∀ w, h.windowEnd = some w → .sent w true ∈ tr
  css : h.css ≠ none → ∃ seg old, tr = seg ++ old ∧ Raised old ∧ Trips (h.rounds - 1) seg ∧
    ∀ w, h.windowEnd = some w → h.rounds ≠ 0 → ∃ a c, seg = a ++ .sent w true :: c ∧ Trips (h.rounds - 1) c

theorem collect_cur (h : Hy) (rtt : Nat) : ∃ c, (h.collect rtt).cur = some c ∧ c ≤ rtt ∧ (∀ d, h.cur = some d → c ≤ d) ∧ (c = rtt ∨ h.cur = some c) := by
  unfold Hy.collect
  cases hc : h.cur with
  | none => exact ⟨rtt, rfl, Nat.le_refl _, (fun d hd => by cases hd), .inl rfl⟩
  | some d =>
    refine ⟨min d rtt, rfl, Nat.min_le_right _ _, fun d' hd => ?_, ?_⟩
    · injection hd with hd; subst hd; exact Nat.min_le_left _ _
    · rw [Nat.min_def]
      split
      · exact .inr rfl
      · exact .inl rfl

/-- The check changes only the conservative phase. -/
theorem check_cases (h : Hy) :
    (h.check = h) ∨
    (∃ c l b, h.css = none ∧ 8 ≤ h.samples ∧ h.cur = some c ∧ h.last = some l ∧ l + raise l ≤ c ∧ b ≤ c ∧ h.check = { h with samples := 0, css := some b }) ∨
    (∃ c b, h.css = some b ∧ 8 ≤ h.samples ∧ h.cur = some c ∧ c < b ∧ h.check = { h with css := none, rounds := 0 }) := by
  unfold Hy.check
  split
  · rename_i h1
    have h0 : h.css = none := Option.isNone_iff_eq_none.mp h1.1
    split
    · rename_i c l hc hl
      split
      · rename_i hle
        rw [raise_eq] at hle
        refine .inr (.inl ⟨c, l, (match h.mode with | .currentRound => c | .entryThreshold => l + Hy.thresh l), h0, h1.2, hc, hl, hle, ?_, rfl⟩)
        cases h.mode
        · exact Nat.le_refl _
        · dsimp only; rw [raise_eq]; exact hle
      · exact .inl rfl
    · exact .inl rfl
  · split
    · rename_i h2
      split
      · rename_i c b hc hb
        split
        · rename_i hlt
          exact .inr (.inr ⟨c, b, hb, h2, hc, hlt, rfl⟩)
        · exact .inl rfl
      · exact .inl rfl
    · exact .inl rfl

/-- The state after an acknowledgement. -/
theorem onAcked_cases (h : Hy) (rtt p : Nat) :
    (h.onAcked rtt p = ((h.collect rtt).check, false) ∧ ∀ w, h.windowEnd = some w → p < w) ∨
    (∃ w, h.windowEnd = some w ∧ w ≤ p ∧ (h.collect rtt).check.css = none ∧ h.onAcked rtt p = ((h.collect rtt).check.nextRound, false)) ∨
    (∃ w b, h.windowEnd = some w ∧ w ≤ p ∧ (h.collect rtt).check.css = some b ∧
      h.onAcked rtt p = ({ (h.collect rtt).check.nextRound with rounds := (h.collect rtt).check.rounds + 1 }, decide (5 ≤ (h.collect rtt).check.rounds + 1))) := by
  have hw : (h.collect rtt).check.windowEnd = h.windowEnd := by
    rcases check_cases (h.collect rtt) with e | ⟨_, _, _, _, _, _, _, _, _, e⟩ | ⟨_, _, _, _, _, _, e⟩ <;> rw [e] <;> rfl
  unfold Hy.onAcked
  dsimp only
  cases hq : h.windowEnd with
  | none =>
    rw [hw, hq]
    exact .inl ⟨rfl, (fun w hw => by cases hw)⟩
  | some w =>
    rw [hw, hq]
    dsimp only
    by_cases hlt : p < w
    · rw [if_pos hlt]
      exact .inl ⟨rfl, (fun w' hw' => by injection hw' with hw'; omega)⟩
    · rw [if_neg hlt]
      right
      cases hc : (h.collect rtt).check.css with
      | none =>
        have : (h.collect rtt).check.nextRound.css = none := hc
        rw [this]
        exact .inl ⟨w, rfl, by omega, rfl, rfl⟩
      | some b =>
        have : (h.collect rtt).check.nextRound.css = some b := hc
        rw [this]
        exact .inr ⟨w, b, rfl, by omega, rfl, rfl⟩

/-- The measurement itself. -/
theorem HInv.collect {h : Hy} {tr : List HEv} (hi : HInv h tr) (rtt p : Nat) : HInv (h.collect rtt) (.ack rtt p :: tr) := by
  obtain ⟨cur, prev, rest, e1, e2, e3, e4, e5, e6, e7⟩ := hi.round
  obtain ⟨c, c1, c2, c3, c4⟩ := collect_cur h rtt
  have hrt : rtts (.ack rtt p :: cur) = rtt :: rtts cur := rfl
  refine ⟨⟨.ack rtt p :: cur, prev, rest, by rw [e1]; rfl, ?_, ?_, ?_, e5, ?_, ?_⟩, hi.zero, fun w hw => List.mem_cons_of_mem _ (hi.window w hw), fun hc => ?_⟩
  · intro hm
    rcases List.mem_cons.mp hm with hm | hm
    · cases hm
    · exact e2 hm
  · show h.samples + 1 ≤ _
    rw [hrt, List.length_cons]
    omega
  · intro d hd x hx
    rw [c1] at hd
    injection hd with hd
    subst hd
    rw [hrt] at hx
    rcases List.mem_cons.mp hx with rfl | hx
    · exact c2
    · cases hcur : h.cur with
      | none => rw [e6 hcur] at hx; cases hx
      | some d => exact Nat.le_trans (c3 d hcur) (e4 d hcur x hx)
  · intro hn; rw [c1] at hn; cases hn
  · intro d hd
    rw [c1] at hd
    injection hd with hd
    subst hd
    rw [hrt]
    rcases c4 with rfl | hc
    · exact List.mem_cons_self
    · exact List.mem_cons_of_mem _ (e7 _ hc)
  · obtain ⟨seg, old, s1, s2, s3, s4⟩ := hi.css hc
    refine ⟨.ack rtt p :: seg, old, by rw [s1]; rfl, s2, .later _ s3, fun w hw h0 => ?_⟩
    obtain ⟨a, c, t1, t2⟩ := s4 w hw h0
    exact ⟨.ack rtt p :: a, c, by rw [t1]; rfl, t2⟩

theorem HInv.check {h : Hy} {tr : List HEv} (hi : HInv h tr) : HInv h.check tr := by
  obtain ⟨cur, prev, rest, e1, e2, e3, e4, e5, e6, e7⟩ := hi.round
  rcases check_cases h with e | ⟨c, l, b, h1, h2, h3, h4, h5, h6, e⟩ | ⟨c, b, h1, h2, h3, h4, e⟩
  · rw [e]; exact hi
  · rw [e]
    refine ⟨⟨cur, prev, rest, e1, e2, Nat.zero_le _, e4, e5, e6, e7⟩, (fun hn => by cases hn), hi.window, fun _ => ⟨[], tr, rfl, ?_, ?_, ?_⟩⟩
    · obtain ⟨l1, l2⟩ := e5 l h4
      exact ⟨cur, prev, rest, e1, e2, by omega, l, l1, l2, fun x hx => Nat.le_trans h5 (e4 c h3 x hx)⟩
    · show Trips (h.rounds - 1) []
      rw [hi.zero h1]
      exact .zero _
    · intro w _ h0
      exact absurd (hi.zero h1) h0
  · rw [e]
    exact ⟨⟨cur, prev, rest, e1, e2, e3, e4, e5, e6, e7⟩, fun _ => rfl, hi.window, (fun hn => absurd rfl hn)⟩

theorem HInv.nextRound {h : Hy} {tr : List HEv} (hi : HInv h tr) (r : Nat) (hn : h.css = none → r = 0)
    (ht : h.css ≠ none → ∃ seg old, tr = seg ++ old ∧ Raised old ∧ Trips (r - 1) seg) : HInv { h.nextRound with rounds := r } tr := by
  obtain ⟨cur, prev, rest, e1, e2, e3, e4, e5, e6, e7⟩ := hi.round
  refine ⟨⟨[], cur, prev ++ rest, by rw [e1]; simp, fun hm => e2 (List.mem_append_left _ hm), Nat.zero_le _, (fun c hc => by cases hc), ?_, fun _ => rfl, (fun c hc => by cases hc)⟩,
    hn, (fun w hw => by cases hw), fun hc => ?_⟩
  · intro l hl
    have hl : h.cur = some l := hl
    exact ⟨e7 l hl, e4 l hl⟩
  · obtain ⟨seg, old, s1, s2, s3⟩ := ht hc
    exact ⟨seg, old, s1, s2, s3, (fun w hw => by cases hw)⟩

/-- The end of a round is one more trip. -/
theorem HInv.moreTrips {h h' : Hy} {tr : List HEv} {rtt p w : Nat} (hr : HReached h' tr) (hl : HLegal tr (.ack rtt p)) (hi : HInv h (.ack rtt p :: tr)) (hw : h.windowEnd = some w)
    (hle : w ≤ p) (hc : h.css ≠ none) : ∃ seg old, .ack rtt p :: tr = seg ++ old ∧ Raised old ∧ Trips h.rounds seg := by
  obtain ⟨seg, old, s1, s2, s3, s4⟩ := hi.css hc
  cases hrd : h.rounds with
  | zero => exact ⟨seg, old, s1, s2, .zero _⟩
  | succ n =>
    obtain ⟨a, c, t1, t2⟩ := s4 w hw (by omega)
    rw [hrd, Nat.add_sub_cancel] at t2
    cases a with
    | nil =>
      rw [t1] at s1
      cases s1
    | cons x a =>
      rw [t1] at s1
      injection s1 with x1 x2
      subst x1
      obtain ⟨b, hb⟩ := hl
      obtain ⟨x, y, b'', hx⟩ := hr.after (a := a) (c := c ++ old) (w := w) (b := true) (by rw [x2]; simp) hb hle
      refine ⟨.ack rtt p :: (x ++ .sent p b'' :: (y ++ c)), old, by rw [hx]; simp, s2, ?_⟩
      exact .trip x rtt p b'' (t2.append y)

theorem HInv.step {h : Hy} {tr : List HEv} {e : HEv} (hr : HReached h tr) (hi : HInv h tr) (hl : HLegal tr e) :
    HInv (h.step e).1 (e :: tr) ∧ ((h.step e).2 = true → ∃ seg old, e :: tr = seg ++ old ∧ Raised old ∧ Trips 4 seg) := by
  cases e with
  | reset =>
    refine ⟨?_, (fun hc => by cases hc)⟩
    exact ⟨⟨[], [], .reset :: tr, rfl, (fun hm => by cases hm), Nat.le_refl _, (fun c hc => by cases hc), (fun c hc => by cases hc), fun _ => rfl, (fun c hc => by cases hc)⟩,
      fun _ => rfl, (fun w hw => by cases hw), (fun hc => absurd rfl hc)⟩
  | sent pn told =>
    refine ⟨?_, (fun hc => by cases hc)⟩
    have base : HInv h (.sent pn told :: tr) := by
      obtain ⟨cur, prev, rest, e1, e2, e3, e4, e5, e6, e7⟩ := hi.round
      refine ⟨⟨.sent pn told :: cur, prev, rest, by rw [e1]; rfl, ?_, e3, e4, e5, e6, e7⟩, hi.zero, fun w hw => List.mem_cons_of_mem _ (hi.window w hw), fun hc => ?_⟩
      · intro hm
        rcases List.mem_cons.mp hm with hm | hm
        · cases hm
        · exact e2 hm
      · obtain ⟨seg, old, s1, s2, s3, s4⟩ := hi.css hc
        refine ⟨.sent pn told :: seg, old, by rw [s1]; rfl, s2, .later _ s3, fun w hw h0 => ?_⟩
        obtain ⟨a, c, t1, t2⟩ := s4 w hw h0
        exact ⟨.sent pn told :: a, c, by rw [t1]; rfl, t2⟩
    show HInv (if told = true then h.onSent pn else h) _
    cases told with
    | false => exact base
    | true =>
      rw [if_pos rfl]
      unfold Hy.onSent
      split
      · exact base
      · refine ⟨base.round, base.zero, ?_, ?_⟩
        · intro w hw
          injection hw with hw
          subst hw
          exact List.mem_cons_self
        · intro hc
          obtain ⟨seg, old, s1, s2, s3, s4⟩ := hi.css hc
          refine ⟨.sent pn true :: seg, old, by rw [s1]; rfl, s2, .later _ s3, fun w hw h0 => ?_⟩
          injection hw with hw
          subst hw
          exact ⟨[], seg, rfl, s3⟩
  | ack rtt p =>
    have h2 := (hi.collect rtt p).check
    have hw' : (h.collect rtt).check.windowEnd = h.windowEnd := by
      rcases check_cases (h.collect rtt) with e | ⟨_, _, _, _, _, _, _, _, _, e⟩ | ⟨_, _, _, _, _, _, e⟩ <;> rw [e] <;> rfl
    show HInv (h.onAcked rtt p).1 _ ∧ ((h.onAcked rtt p).2 = true → _)
    rcases onAcked_cases h rtt p with ⟨e, _⟩ | ⟨w, hw, hle, hc, e⟩ | ⟨w, b, hw, hle, hc, e⟩
    · rw [e]; exact ⟨h2, (fun hc => by cases hc)⟩
    · rw [e]
      refine ⟨?_, (fun hc => by cases hc)⟩
      exact h2.nextRound (h.collect rtt).check.rounds h2.zero (fun hn => absurd hc hn)
    · rw [e]
      have hne : (h.collect rtt).check.css ≠ none := by rw [hc]; exact Option.some_ne_none _
      have more := HInv.moreTrips hr hl h2 (hw'.trans hw) hle hne
      refine ⟨h2.nextRound ((h.collect rtt).check.rounds + 1) (fun hn => absurd hn hne) (fun _ => by rw [Nat.add_sub_cancel]; exact more), fun h5 => ?_⟩
      have h5 := of_decide_eq_true h5
      obtain ⟨seg, old, s1, s2, s3⟩ := more
      refine ⟨seg, old, s1, s2, ?_⟩
      have down : ∀ {n m : Nat} {tr : List HEv}, Trips n tr → m ≤ n → Trips m tr := by
        intro n m tr ht
        induction ht generalizing m with
        | zero => intro hm; rw [Nat.le_zero.mp hm]; exact .zero _
        | later e _ ih => intro hm; exact .later e (ih hm)
        | trip mid rtt pn b _ ih =>
          intro hm
          cases m with
          | zero => exact .zero _
          | succ m => exact .trip mid rtt pn b (ih (by omega))
      exact down s3 (by omega)

theorem HReached.inv {h : Hy} {tr : List HEv} (hr : HReached h tr) : HInv h tr := by
  induction hr with
  | new => exact ⟨⟨[], [], [], rfl, (fun hm => by cases hm), Nat.le_refl _, (fun c hc => by cases hc), (fun c hc => by cases hc), fun _ => rfl, (fun c hc => by cases hc)⟩,
      fun _ => rfl, (fun w hw => by cases hw), (fun hc => absurd rfl hc)⟩
  | step hr hl ih => exact (ih.step hr hl).1

/-! ## Theorems -/

/-- C99: HyStart++ enters its conservative phase only when the delay has gone up. -/
theorem C99_conservative_only_if_raised {h : Hy} {tr : List HEv} {e : HEv} (hr : HReached h tr) (hl : HLegal tr e) (h0 : h.css = none) (h1 : (h.step e).1.css ≠ none) :
    Raised (e :: tr) := by
  have hi := hr.inv
  cases e with
  | reset => exact absurd rfl h1
  | sent pn told =>
    exfalso
    apply h1
    show (if told = true then h.onSent pn else h).css = none
    split
    · unfold Hy.onSent; split <;> exact h0
    · exact h0
  | ack rtt p =>
    have hc : (h.collect rtt).check.css ≠ none := by
      intro hn
      apply h1
      show (h.onAcked rtt p).1.css = none
      rcases onAcked_cases h rtt p with ⟨e, _⟩ | ⟨w, _, _, hc, e⟩ | ⟨w, b, _, _, hc, e⟩
      · rw [e]; exact hn
      · rw [e]; exact hn
      · rw [hc] at hn; cases hn
    obtain ⟨cur, prev, rest, e1, e2, e3, e4, e5, e6, e7⟩ := (hi.collect rtt p).round
    rcases check_cases (h.collect rtt) with e | ⟨c, l, b, q1, q2, q3, q4, q5, q6, e⟩ | ⟨c, b, q1, _, _, _, _⟩
    · rw [e] at hc; exact absurd h0 hc
    · obtain ⟨l1, l2⟩ := e5 l q4
      exact ⟨cur, prev, rest, e1, e2, by omega, l, l1, l2, fun x hx => Nat.le_trans q5 (e4 c q3 x hx)⟩
    · have : h.css = some b := q1
      rw [h0] at this
      cases this

/-- C99: HyStart++ leaves slow start only after the delay has gone up and after that four round trips, one after the other,
have been made. -/
theorem C99_leaves_after_four_trips {h : Hy} {tr : List HEv} {e : HEv} (hr : HReached h tr) (hl : HLegal tr e) (h1 : (h.step e).2 = true) :
    ∃ seg old, e :: tr = seg ++ old ∧ Raised old ∧ Trips 4 seg :=
  (hr.inv.step hr hl).2 h1

theorem Raised.spread {tr : List HEv} (h : Raised tr) : ∃ x ∈ rtts tr, ∃ y ∈ rtts tr, x + 4000000 ≤ y := by
  obtain ⟨cur, prev, rest, e1, _, e3, l, l1, _, l3⟩ := h
  have hne : rtts cur ≠ [] := by intro hn; rw [hn] at e3; exact absurd e3 (by decide)
  obtain ⟨x, hx⟩ := List.exists_mem_of_ne_nil _ hne
  refine ⟨l, ?_, x, ?_, ?_⟩
  · rw [e1, rtts_append, rtts_append]
    exact List.mem_append_left _ (List.mem_append_right _ l1)
  · rw [e1, rtts_append, rtts_append]
    exact List.mem_append_left _ (List.mem_append_left _ hx)
  · have := l3 x hx
    unfold raise at this
    split at this
    · omega
    · split at this <;> omega

/-- C99: if round-trip times vary by less than 4 ms, HyStart++ does not leave slow start and does not slow it down. -/
theorem C99_jitter_is_ignored {h : Hy} {tr : List HEv} (hr : HReached h tr) (hs : ∀ x ∈ rtts tr, ∀ y ∈ rtts tr, y < x + 4000000) :
    h.css = none ∧ ∀ e, HLegal tr e → (∀ x ∈ rtts (e :: tr), ∀ y ∈ rtts (e :: tr), y < x + 4000000) → (h.step e).2 = false := by
  constructor
  · cases hc : h.css with
    | none => rfl
    | some b =>
      obtain ⟨seg, old, s1, s2, _⟩ := hr.inv.css (by rw [hc]; exact Option.some_ne_none _)
      obtain ⟨x, hx, y, hy, hxy⟩ := s2.spread
      have := hs x (by rw [s1, rtts_append]; exact List.mem_append_right _ hx) y (by rw [s1, rtts_append]; exact List.mem_append_right _ hy)
      omega
  · intro e hl hs'
    cases hb : (h.step e).2 with
    | false => rfl
    | true =>
      obtain ⟨seg, old, s1, s2, _⟩ := C99_leaves_after_four_trips hr hl hb
      obtain ⟨x, hx, y, hy, hxy⟩ := s2.spread
      have := hs' x (by rw [s1, rtts_append]; exact List.mem_append_right _ hx) y (by rw [s1, rtts_append]; exact List.mem_append_right _ hy)
      omega

/-- Several events, and what was answered. -/
def Hy.steps : Hy → List HEv → Hy × List Bool
  | h, [] => (h, [])
  | h, e :: es => (((h.step e).1.steps es).1, (h.step e).2 :: ((h.step e).1.steps es).2)

/-- An event that does not show the delay going down below `b`. -/
def Stays (b : Nat) : HEv → Prop
  | .sent _ _ => True
  | .ack rtt _ => b ≤ rtt
  | .reset => False

/-- In the conservative phase, with all measurements of the round at the level of its start. -/
def Held (b : Nat) (h : Hy) : Prop := h.css = some b ∧ ∀ c, h.cur = some c → b ≤ c

/-- One event keeps that.  The end of a round counts. -/
theorem Held.step {b : Nat} {h : Hy} (hh : Held b h) {e : HEv} (he : Stays b e) : Held b (h.step e).1 ∧ h.rounds ≤ (h.step e).1.rounds ∧
    ((h.step e).2 = false → (h.step e).1.rounds = h.rounds ∨ (h.step e).1.rounds < 5) ∧
    (∀ w, h.windowEnd = some w → (h.step e).1.windowEnd = some w ∨ h.rounds + 1 ≤ (h.step e).1.rounds) ∧
    ∀ rtt p w, e = .ack rtt p → h.windowEnd = some w → w ≤ p → h.rounds + 1 ≤ (h.step e).1.rounds := by
  obtain ⟨h1, h2⟩ := hh
  cases e with
  | reset => exact absurd he id
  | sent pn told =>
    show Held b (if told = true then h.onSent pn else h) ∧ _
    have hd : (if told = true then h.onSent pn else h) = h ∨ (h.windowEnd = none ∧ (if told = true then h.onSent pn else h) = { h with windowEnd := some pn }) := by
      split
      · unfold Hy.onSent
        split
        · exact .inl rfl
        · rename_i hw; exact .inr ⟨hw, rfl⟩
      · exact .inl rfl
    have e1 : (h.step (.sent pn told)).1 = (if told = true then h.onSent pn else h) := rfl
    rw [e1]
    rcases hd with hd | ⟨hw, hd⟩
    · rw [hd]
      exact ⟨⟨h1, h2⟩, Nat.le_refl _, fun _ => .inl rfl, fun w hw => .inl hw, (fun rtt p w he => by cases he)⟩
    · rw [hd]
      exact ⟨⟨h1, h2⟩, Nat.le_refl _, fun _ => .inl rfl, (fun w hw' => by rw [hw] at hw'; cases hw'), (fun rtt p w he => by cases he)⟩
  | ack rtt p =>
    have he : b ≤ rtt := he
    obtain ⟨c, c1, c2, c3, c4⟩ := collect_cur h rtt
    have hbc : b ≤ c := by
      rcases c4 with rfl | c4
      · exact he
      · exact h2 c c4
    have hck : (h.collect rtt).check = h.collect rtt := by
      rcases check_cases (h.collect rtt) with e | ⟨_, _, _, q1, _⟩ | ⟨c', b', q1, _, q3, q4, _⟩
      · exact e
      · have : h.css = none := q1
        rw [h1] at this; cases this
      · have q1 : h.css = some b' := q1
        rw [h1] at q1
        injection q1 with q1
        rw [c1] at q3
        injection q3 with q3
        omega
    have hst : h.step (.ack rtt p) = h.onAcked rtt p := rfl
    rw [hst]
    have hcss : (h.collect rtt).css = some b := h1
    rcases onAcked_cases h rtt p with ⟨e, hlt⟩ | ⟨w, _, _, hc, e⟩ | ⟨w, b', hw, hle, hc, e⟩
    · rw [e, hck]
      refine ⟨⟨hcss, fun d hd => ?_⟩, Nat.le_refl _, fun _ => .inl rfl, fun w hw => .inl hw, fun rtt' p' w' he' hw' hle' => ?_⟩
      · rw [c1] at hd; injection hd with hd; omega
      · injection he' with _ he'
        have := hlt w' hw'
        omega
    · rw [hck, hcss] at hc; cases hc
    · rw [e, hck]
      refine ⟨⟨hcss, (fun d hd => by cases hd)⟩, Nat.le_succ _, fun hf => .inr ?_, fun w' _ => .inr (Nat.le_refl _), fun _ _ _ _ _ _ => Nat.le_refl _⟩
      have hf := of_decide_eq_false hf
      show h.rounds + 1 < 5
      have : (h.collect rtt).rounds = h.rounds := rfl
      omega

theorem Held.steps : ∀ {es : List HEv} {b : Nat} {h : Hy}, Held b h → (∀ e ∈ es, Stays b e) → Held b (h.steps es).1 ∧ h.rounds ≤ (h.steps es).1.rounds ∧
    (true ∉ (h.steps es).2 → (h.steps es).1.rounds = h.rounds ∨ (h.steps es).1.rounds < 5) ∧
    (∀ w, h.windowEnd = some w → (h.steps es).1.windowEnd = some w ∨ h.rounds + 1 ≤ (h.steps es).1.rounds) := by
  intro es
  induction es with
  | nil => intro b h hh _; exact ⟨hh, Nat.le_refl _, fun _ => .inl rfl, fun w hw => .inl hw⟩
  | cons e es ih =>
    intro b h hh hs
    obtain ⟨a1, a2, a3, a4, _⟩ := hh.step (hs e List.mem_cons_self)
    obtain ⟨b1, b2, b3, b4⟩ := ih a1 (fun e he => hs e (List.mem_cons_of_mem _ he))
    refine ⟨b1, Nat.le_trans a2 b2, fun hn => ?_, fun w hw => ?_⟩
    · have n1 : (h.step e).2 = false := by
        cases hb : (h.step e).2 with
        | false => rfl
        | true => exact absurd (show true ∈ (h.steps (e :: es)).2 from by unfold Hy.steps; rw [hb]; exact List.mem_cons_self) hn
      have n2 : true ∉ ((h.step e).1.steps es).2 := fun hm => hn (List.mem_cons_of_mem _ hm)
      show ((h.step e).1.steps es).1.rounds = h.rounds ∨ ((h.step e).1.steps es).1.rounds < 5
      rcases b3 n2 with q | q
      · rcases a3 n1 with r | r
        · exact .inl (q.trans r)
        · exact .inr (by omega)
      · exact .inr q
    · show ((h.step e).1.steps es).1.windowEnd = some w ∨ h.rounds + 1 ≤ ((h.step e).1.steps es).1.rounds
      rcases a4 w hw with q | q
      · rcases b4 w q with r | r
        · exact .inl r
        · exact .inr (by omega)
      · exact .inr (by omega)

theorem Hy.steps_append : ∀ (a b : List HEv) (h : Hy), h.steps (a ++ b) = (((h.steps a).1.steps b).1, (h.steps a).2 ++ ((h.steps a).1.steps b).2) := by
  intro a
  induction a with
  | nil => intro b h; rfl
  | cons e a ih =>
    intro b h
    show (((h.step e).1.steps (a ++ b)).1, (h.step e).2 :: ((h.step e).1.steps (a ++ b)).2) = _
    rw [ih]
    rfl

theorem HReached.steps : ∀ {es : List HEv} {h : Hy} {tr : List HEv}, HReached h tr → (∀ a e c, es = a ++ e :: c → HLegal (a.reverse ++ tr) e) → HReached (h.steps es).1 (es.reverse ++ tr) := by
  intro es
  induction es with
  | nil => intro h tr hr _; exact hr
  | cons e es ih =>
    intro h tr hr hl
    have h1 : HReached (h.step e).1 (e :: tr) := .step hr (hl [] e es rfl)
    have := @ih _ (e :: tr) h1 (fun a x c he => by
      have := hl (e :: a) x c (by rw [he]; rfl)
      rw [List.reverse_cons, List.append_assoc] at this
      exact this)
    rw [List.reverse_cons, List.append_assoc]
    exact this

/-- A stretch in which a packet is sent and at the end all packets sent so far are acknowledged, without the delay going
down below `b`. -/
def Flight (b : Nat) (before blk : List HEv) : Prop :=
  ∃ pn mid rtt p, blk = .sent pn true :: (mid ++ [.ack rtt p]) ∧ (∀ e ∈ blk, Stays b e) ∧ ∀ q, .sent q true ∈ before ++ blk → q ≤ p

/-- Each such stretch counts. -/
theorem Held.flight {b : Nat} {h : Hy} {tr blk : List HEv} (hr : HReached h tr) (hh : Held b h) (hf : Flight b tr blk) :
    Held b (h.steps blk).1 ∧ h.rounds + 1 ≤ (h.steps blk).1.rounds ∧ (true ∉ (h.steps blk).2 → (h.steps blk).1.rounds < 5) := by
  obtain ⟨pn, mid, rtt, p, e1, e2, e3⟩ := hf
  have hall := hh.steps e2
  have key : h.rounds + 1 ≤ (h.steps blk).1.rounds := by
    have hw : ∃ w, (h.step (.sent pn true)).1.windowEnd = some w ∧ w ≤ p := by
      show ∃ w, (h.onSent pn).windowEnd = some w ∧ w ≤ p
      unfold Hy.onSent
      split
      · rename_i w hw
        exact ⟨w, hw, e3 w (List.mem_append_left _ (hr.inv.window w hw))⟩
      · exact ⟨pn, rfl, e3 pn (List.mem_append_right _ (by rw [e1]; exact List.mem_cons_self))⟩
    obtain ⟨w, hw, hle⟩ := hw
    rw [e1] at e2 ⊢
    obtain ⟨a1, a2, _⟩ := hh.step (e2 (.sent pn true) List.mem_cons_self)
    show h.rounds + 1 ≤ ((h.step (.sent pn true)).1.steps (mid ++ [.ack rtt p])).1.rounds
    rw [Hy.steps_append]
    obtain ⟨b1, b2, _, b4⟩ := a1.steps (es := mid) (fun e he => e2 e (List.mem_cons_of_mem _ (List.mem_append_left _ he)))
    obtain ⟨c1, c2, _, _, c5⟩ := b1.step (e := .ack rtt p) (e2 _ (List.mem_cons_of_mem _ (List.mem_append_right _ List.mem_cons_self)))
    show h.rounds + 1 ≤ ((((h.step (.sent pn true)).1.steps mid).1).step (.ack rtt p)).1.rounds
    rcases b4 w hw with q | q
    · have := c5 rtt p w rfl q hle
      omega
    · omega
  refine ⟨hall.1, key, fun hn => ?_⟩
  rcases hall.2.2.1 hn with q | q
  · omega
  · exact q

/-- Five stretches one after the other. -/
inductive Flights (b : Nat) : Nat → List HEv → List HEv → Prop
  | nil (tr) : Flights b 0 tr []
  | cons {n tr blk es} : Flight b tr blk → Flights b n (blk.reverse ++ tr) es → Flights b (n + 1) tr (blk ++ es)

theorem Held.flights {b n : Nat} {tr es : List HEv} (hf : Flights b n tr es) : ∀ {h : Hy}, HReached h tr → Held b h → (∀ a e c, es = a ++ e :: c → HLegal (a.reverse ++ tr) e) →
    true ∉ (h.steps es).2 → h.rounds + n ≤ (h.steps es).1.rounds ∧ (n = 0 ∨ (h.steps es).1.rounds < 5) := by
  induction hf with
  | nil => intro h _ _ _ _; exact ⟨Nat.le_refl _, .inl rfl⟩
  | @cons n tr blk es hb _ ih =>
    intro h hr hh hl hn
    rw [Hy.steps_append] at hn ⊢
    obtain ⟨a1, a2, a3⟩ := hh.flight hr hb
    have hr' := hr.steps (es := blk) (fun a e c he => hl a e (c ++ es) (by rw [he]; simp))
    obtain ⟨b1, b2⟩ := ih hr' a1 (fun a e c he => by
      have := hl (blk ++ a) e c (by rw [he]; simp)
      rw [List.reverse_append, List.append_assoc] at this
      exact this) (fun hm => hn (List.mem_append_right _ hm))
    refine ⟨?_, .inr ?_⟩
    · show h.rounds + (n + 1) ≤ ((h.steps blk).1.steps es).1.rounds
      omega
    · have q := a3 (fun hm => hn (List.mem_append_left _ hm))
      show ((h.steps blk).1.steps es).1.rounds < 5
      rcases b2 with b2 | b2
      · cases es with
        | nil => exact q
        | cons x xs =>
          rename_i hfl
          subst b2
          cases hfl
      · exact b2

/-- C99: once HyStart++ has entered its conservative phase, slow start is left within five round trips, unless the delay
goes down again: if `b` is not above any measurement of the round so far and each of five times a packet is sent and
then all packets are acknowledged, with round-trip times not below `b`, then one of the answers is to leave. -/
theorem C99_leaves {h : Hy} {tr es : List HEv} {e : HEv} (hr : HReached h tr) (hl : HLegal tr e) (h0 : h.css = none) {b : Nat} (h1 : (h.step e).1.css = some b)
    (hf : Flights b 5 (e :: tr) es) (hle : ∀ a x c, es = a ++ x :: c → HLegal (a.reverse ++ e :: tr) x) : true ∈ ((h.step e).1.steps es).2 := by
  have held : Held b (h.step e).1 := by
    refine ⟨h1, ?_⟩
    cases e with
    | reset => cases h1
    | sent pn told =>
      exfalso
      have : (if told = true then h.onSent pn else h).css = some b := h1
      split at this
      · unfold Hy.onSent at this
        split at this
        · rw [h0] at this; cases this
        · have this : h.css = some b := this
          rw [h0] at this; cases this
      · rw [h0] at this; cases this
    | ack rtt p =>
      have h1 : (h.onAcked rtt p).1.css = some b := h1
      show ∀ c, (h.onAcked rtt p).1.cur = some c → b ≤ c
      rcases onAcked_cases h rtt p with ⟨e, _⟩ | ⟨w, _, _, hc, e⟩ | ⟨w, b', _, _, hc, e⟩
      · rw [e] at h1 ⊢
        rcases check_cases (h.collect rtt) with e | ⟨c, l, b', q1, q2, q3, q4, q5, q6, e⟩ | ⟨_, b', q1, _⟩
        · rw [e] at h1
          have h1 : h.css = some b := h1
          rw [h0] at h1; cases h1
        · rw [e] at h1 ⊢
          injection h1 with h1
          intro d hd
          have hd : (h.collect rtt).cur = some d := hd
          rw [q3] at hd
          injection hd with hd
          omega
        · have q1 : h.css = some b' := q1
          rw [h0] at q1; cases q1
      · rw [e]; intro c hc; cases hc
      · rw [e]; intro c hc; cases hc
  cases hm : decide (true ∈ ((h.step e).1.steps es).2) with
  | true => exact of_decide_eq_true hm
  | false =>
    exfalso
    have hn := of_decide_eq_false hm
    obtain ⟨g1, g2⟩ := Held.flights hf (.step hr hl) held hle hn
    rcases g2 with g2 | g2
    · cases g2
    · omega

/-- C99: if the delay goes down again, slow start goes on as before: in the conservative phase, if within a round eight
round-trip times are measured and one of them, or one before them in that round, is below the level `b` of its start,
then the phase ends by then. -/
theorem C99_resumes : ∀ {acks : List (Nat × Nat)} {h : Hy} {b : Nat}, h.css = some b → acks ≠ [] → 8 ≤ h.samples + acks.length → (∀ w, h.windowEnd = some w → ∀ a ∈ acks, a.2 < w) →
    ((∃ c, h.cur = some c ∧ c < b) ∨ ∃ a ∈ acks, a.1 < b) → ∃ k, 0 < k ∧ k ≤ acks.length ∧ (h.steps ((acks.take k).map fun a => .ack a.1 a.2)).1.css = none := by
  intro acks
  induction acks with
  | nil => intro h b _ hn; exact absurd rfl hn
  | cons a as ih =>
    intro h b hc _ h8 hw hlow
    obtain ⟨c, c1, c2, c3, c4⟩ := collect_cur h a.1
    have hstep : (h.step (.ack a.1 a.2)).1 = (h.collect a.1).check := by
      show (h.onAcked a.1 a.2).1 = _
      rcases onAcked_cases h a.1 a.2 with ⟨e, _⟩ | ⟨w, hw', hle, _⟩ | ⟨w, _, hw', hle, _⟩
      · rw [e]
      · have := hw w hw' a List.mem_cons_self; omega
      · have := hw w hw' a List.mem_cons_self; omega
    rcases check_cases (h.collect a.1) with e | ⟨_, _, _, q1, _⟩ | ⟨c', b', q1, q2, q3, q4, e⟩
    · have hcss : (h.collect a.1).css = some b := hc
      have nocheck : ¬(8 ≤ h.samples + 1 ∧ c < b) := by
        intro hx
        have hq : (h.collect a.1).check.css = none := by
          unfold Hy.check
          rw [hcss, if_neg (by simp), if_pos (show 8 ≤ (h.collect a.1).samples from hx.1), c1]
          dsimp only
          rw [if_pos hx.2]
        rw [e, hcss] at hq
        cases hq
      have low' : c < b ∨ ∃ x ∈ as, x.1 < b := by
        rcases hlow with ⟨d, d1, d2⟩ | ⟨x, hx, d2⟩
        · exact .inl (Nat.lt_of_le_of_lt (c3 d d1) d2)
        · rcases List.mem_cons.mp hx with rfl | hx
          · exact .inl (Nat.lt_of_le_of_lt c2 d2)
          · exact .inr ⟨x, hx, d2⟩
      have hne : as ≠ [] := by
        intro hn
        subst hn
        rcases low' with q | ⟨x, hx, _⟩
        · exact nocheck ⟨h8, q⟩
        · cases hx
      obtain ⟨k, k1, k2, k3⟩ := @ih (h.collect a.1) b hcss hne (by rw [List.length_cons] at h8; show 8 ≤ h.samples + 1 + as.length; omega)
        (fun w hw' x hx => hw w hw' x (List.mem_cons_of_mem _ hx)) (by
          rcases low' with q | q
          · exact .inl ⟨c, c1, q⟩
          · exact .inr q)
      refine ⟨k + 1, Nat.succ_pos _, by rw [List.length_cons]; omega, ?_⟩
      rw [List.take_succ_cons, List.map_cons]
      show ((h.step (.ack a.1 a.2)).1.steps _).1.css = none
      rw [hstep, e]
      exact k3
    · have q1 : h.css = none := q1
      rw [hc] at q1; cases q1
    · refine ⟨1, Nat.one_pos, by rw [List.length_cons]; omega, ?_⟩
      show (h.step (.ack a.1 a.2)).1.css = none
      rw [hstep, e]

/-- C99: in the conservative phase the window grows a quarter as fast, and never by more than what was acknowledged. -/
theorem C99_growth (h : Hy) (mtu new : Nat) : ((Algo.hystart h).answer false).increase mtu new ≤ new ∧
    (h.css ≠ none → 4 * ((Algo.hystart h).answer false).increase mtu new ≤ new) ∧ (h.paced = true → h.css = none → ((Algo.hystart h).answer false).increase mtu new = new) ∧
    (h.paced = false → ((Algo.hystart h).answer false).increase mtu new ≤ 8 * mtu) := by
  obtain ⟨paced, mode, last, cur, samples, windowEnd, css, rounds⟩ := h
  unfold Algo.answer Rec.SsIn.increase
  dsimp only
  have m1 : Nat.min (8 * mtu) new ≤ new := Nat.min_le_right _ _
  have m2 : Nat.min (8 * mtu) new ≤ 8 * mtu := Nat.min_le_left _ _
  cases paced <;> cases css <;> simp <;> omega

/-! ## Examples -/

/-- A round of ten packets, the first numbered `n`, all acknowledged one by one with the same round-trip time. -/
def exRound (n rtt : Nat) : List HEv := (List.range 10).map (fun i => .sent (n + i) true) ++ (List.range 10).map (fun i => .ack rtt (n + i))

/-- Round-trip times of 20 ms, then of 30 ms. -/
def exHy : List HEv := exRound 0 20000000 ++ (List.range 7).flatMap fun i => exRound (10 + 10 * i) 30000000

def exNew : Hy := { paced := true, mode := .currentRound }
/-- The conservative phase begins in the third round (a round ends when its first packet is acknowledged), and slow start is left. -/
example : (exNew.steps (exHy.take 38)).1.css = none ∧ (exNew.steps (exHy.take 39)).1.css = some 30000000 := by decide +kernel
example : true ∈ (exNew.steps exHy).2 ∧ (exNew.steps exHy).2.findIdx? (· = true) = some 130 := by decide +kernel
/-- With the same round-trip time all the time it is not. -/
example : true ∉ (exNew.steps ((List.range 30).flatMap fun i => exRound (10 * i) 20000000)).2 := by decide +kernel
/-- If the delay goes down again, slow start goes on. -/
example : (exNew.steps (exHy.take 90 ++ (List.range 10).map (fun i => .sent (1000 + i) true) ++ (List.range 10).map (fun i => .ack 20000000 (500 + i)))).1.css = none := by decide +kernel

end Neqo.Ss
