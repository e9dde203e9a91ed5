import Verif.H3Server.Props

/-!
# The states of a connection that `Http3Server` tells an application

`states` are the states among the reports, `untilClosed` the part up to the first `closed`.
-/
namespace Neqo.H3s

/-! ## Specification -/

/-- The states among the reports. -/
def states : List HEv → List HSt
  | [] => []
  | .state s :: es => s :: states es
  | _ :: es => states es

/-- The part up to the first `closed`. -/
def untilClosed : List HSt → List HSt
  | [] => []
  | .closed :: _ => [.closed]
  | s :: ss => s :: untilClosed ss

/-! ## Everything that can happen to one connection -/

/-- What has to be shown for a property of one connection. -/
structure Keeps (P : View → Prop) : Prop where
  new : P ⟨⟨.start, []⟩, none, []⟩
  queue : ∀ v e, (∀ s, e ≠ TEv.state s) → v.conn.st.rank ≤ 1 → P v → P { v with conn := { v.conn with evs := v.conn.evs ++ [e] } }
  setState : ∀ v s again, P v → P { v with conn := v.conn.setState s again }
  hd : ∀ v f, (∀ h : Hd, (f h).st = h.st ∧ (f h).out = h.out) → P v → P { v with hd := v.hd.map f }
  events : ∀ v got ctl more, KInv v got → P v → P (v.events ctl more)

theorem Keeps.act {P : View → Prop} (hp : Keeps P) {w : World} (h : ∀ k, P (w.view k)) (a : Act) (k : Nat) :
    P ((w.act a).view k) := by
  by_cases hk : a.key = k
  · subst hk
    cases a with
    | accept j => unfold World.act; dsimp only; split <;> exact h _
    | data j n =>
      unfold World.act
      dsimp only
      split
      · rename_i ho
        have := hp.queue (w.view j) (.data n) (fun s => by simp) (open_iff.mp ho).2 (h j)
        simpa [World.view, World.queue, upd, Act.key] using this
      · exact h _
    | prio j n =>
      unfold World.act
      dsimp only
      split
      · rename_i ho
        have := hp.queue (w.view j) (.prio n) (fun s => by simp) (open_iff.mp ho).2 (h j)
        simpa [World.view, World.queue, upd, Act.key] using this
      · exact h _
    | bad j =>
      unfold World.act
      dsimp only
      split
      · rename_i ho
        have := hp.queue (w.view j) .bad (fun s => by simp) (open_iff.mp ho).2 (h j)
        simpa [World.view, World.queue, upd, Act.key] using this
      · exact h _
    | state j s again =>
      unfold World.act
      dsimp only
      split
      · have := hp.setState (w.view j) s again (h j)
        simpa [World.view, upd, Act.key] using this
      · exact h _
  · rw [(act_view hk).1]; exact h k

theorem Keeps.acts {P : View → Prop} (hp : Keeps P) : ∀ (l : List Act) {w : World}, (∀ k, P (w.view k)) →
    ∀ k, P ((w.acts l).view k)
  | [], _, h => h
  | a :: l, w, h => Keeps.acts hp l (w := w.act a) (hp.act h a)

theorem Keeps.asked {P : View → Prop} (hp : Keeps P) {v : View} (h : P v) : P v.asked :=
  hp.hd v (fun h => { h with needs := false }) (fun _ => ⟨rfl, rfl⟩) h

theorem Keeps.pass {P : View → Prop} (hp : Keeps P) {w : World} (hi : Inv w) (h : ∀ k, P (w.view k)) (ctl more : Nat → Bool)
    (k : Nat) : P ((w.pass ctl more).view k) := by
  rw [view_pass hi.nodup]
  split
  · exact hp.events _ _ _ _ (hi.key k).asked (hp.asked (h k))
  · exact hp.asked (h k)

theorem Keeps.step {P : View → Prop} (hp : Keeps P) {w : World} (hi : Inv w) (h : ∀ k, P (w.view k)) (o : Op) (k : Nat) :
    P ((w.step o).view k) := by
  cases o with
  | call i =>
    have h1 := hp.pass (inv_acts i.ins hi) (hp.acts i.ins h) i.ctl i.more
    show P ((w.call i).view k)
    unfold World.call
    dsimp only
    split
    · exact h1 k
    · split
      · exact hp.acts i.outs h1 k
      · exact hp.acts i.outs h1 k
  | send j =>
    by_cases hk : k = j
    · subst hk
      have := hp.hd (w.view k) (fun h => { h with needs := true, pend := true }) (fun _ => ⟨rfl, rfl⟩) (h k)
      simpa [World.view, World.step, upd] using this
    · have := h k
      simpa [World.view, World.step, upd, hk] using this
  | goaway id => exact hp.hd (w.view k) (fun h => h.goaway id) (fun _ => ⟨rfl, rfl⟩) (h k)

theorem Keeps.run {P : View → Prop} (hp : Keeps P) : ∀ (ops : List Op) {w : World}, Inv w → (∀ k, P (w.view k)) →
    ∀ k, P ((w.run ops).view k)
  | [], _, _, h => h
  | o :: ops, w, hi, h => Keeps.run hp ops (w := w.step o) (inv_step hi o) (hp.step hi h o)

theorem Keeps.reachable {P : View → Prop} (hp : Keeps P) (ops : List Op) (k : Nat) : P ((World.new.run ops).view k) :=
  hp.run ops inv_new (fun _ => hp.new) k

/-! ## Closed is told -/

/-- A closed connection has said so, or its application was told. -/
def ClosedKnown (v : View) : Prop :=
  v.conn.st = .closed → TEv.state .closed ∈ v.conn.evs ∨ HEv.state .closed ∈ v.told

theorem changed_closed (h : Hd) (s : TSt) (hh : h.st = .closed → HEv.state .closed ∈ h.out) :
    ((h.changed s).st = .closed → HEv.state .closed ∈ (h.changed s).out) ∧
    (HEv.state .closed ∈ h.out → HEv.state .closed ∈ (h.changed s).out) ∧
    (s = .closed → HEv.state .closed ∈ (h.changed s).out) := by
  unfold Hd.changed
  cases hc : h.st.change s with
  | none =>
    refine ⟨hh, id, ?_⟩
    intro hs
    subst hs
    refine hh ?_
    unfold HSt.change at hc
    dsimp only at hc
    split at hc
    · assumption
    · cases hc
  | some t =>
    dsimp only
    refine ⟨fun ht => by subst ht; simp, fun h => List.mem_append_left _ h, ?_⟩
    intro hs
    subst hs
    unfold HSt.change at hc
    dsimp only at hc
    split at hc
    · cases hc
    · cases hc; simp

theorem loop_closed : ∀ (es : List TEv) (h : Hd) (c : Conn), (h.st = .closed → HEv.state .closed ∈ h.out) →
    (TEv.state .closed ∈ es ∨ HEv.state .closed ∈ h.out) → HEv.state .closed ∈ (Hd.loop es h c).1.1.out
  | [], h, c, _, hm => by
    rcases hm with hm | hm
    · cases hm
    · exact hm
  | .bad :: es, h, c, _, _ => by simp [Hd.loop, Hd.fail]
  | .data n :: es, h, c, hh, hm => by
    unfold Hd.loop
    refine loop_closed es _ c (fun hs => List.mem_append_left _ (hh hs)) ?_
    rcases hm with hm | hm
    · left; simpa using hm
    · exact Or.inr (List.mem_append_left _ hm)
  | .prio n :: es, h, c, hh, hm => by
    unfold Hd.loop
    refine loop_closed es _ c (fun hs => List.mem_append_left _ (hh hs)) ?_
    rcases hm with hm | hm
    · left; simpa using hm
    · exact Or.inr (List.mem_append_left _ hm)
  | .state s :: es, h, c, hh, hm => by
    unfold Hd.loop
    obtain ⟨a, b, d⟩ := changed_closed h s hh
    refine loop_closed es _ c a ?_
    rcases hm with hm | hm
    · rcases List.mem_cons.mp hm with hm | hm
      · injection hm with hm
        exact Or.inr (d hm.symm)
      · exact Or.inl hm
    · exact Or.inr (b hm)

theorem run_out (h : Hd) (c : Conn) (ctl more : Bool) (hst : h.st ≠ .closed) :
    (h.run c ctl more).1.out = (Hd.loop c.evs h c).1.1.out ∧ (h.run c ctl more).1.st = (Hd.loop c.evs h c).1.1.st ∧
    (h.run c ctl more).2 = (Hd.loop c.evs h c).1.2 := by
  unfold Hd.run
  rw [if_neg hst]
  rcases Hd.loop c.evs h c with ⟨⟨h', c'⟩, ok⟩
  cases ok with
  | true => exact ⟨rfl, rfl, rfl⟩
  | false => exact ⟨(sending_same h' ctl more).1, (sending_same h' ctl more).2, rfl⟩

/-- After the handler ran, a closed connection was told. -/
theorem events_told_closed {v : View} {got : List Nat} (ctl more : Bool) (hi : KInv v got) (h : ClosedKnown v)
    (hc : (v.events ctl more).conn.st = .closed) : HEv.state .closed ∈ (v.events ctl more).told := by
  obtain ⟨h1, h2, _⟩ := hi.used
  obtain ⟨ok, hr⟩ := run_ran (v.hd.getD Hd.new) v.conn ctl more h2
  obtain ⟨r1, _, _⟩ := run_out (v.hd.getD Hd.new) v.conn ctl more h2
  cases ok with
  | true => exact List.mem_append_right _ (List.mem_filter.mpr ⟨(hr.fail rfl).1, rfl⟩)
  | false =>
    have hcv : v.conn.st = .closed := by
      have : (v.events ctl more).conn = { v.conn with evs := [] } := hr.good rfl
      rw [this] at hc
      exact hc
    rcases h hcv with he | he
    · refine List.mem_append_right _ (List.mem_filter.mpr ⟨?_, rfl⟩)
      rw [r1]
      exact loop_closed _ _ _ (fun h => absurd h h2) (Or.inl he)
    · exact List.mem_append_left _ he

theorem closedKnown_keeps : Keeps ClosedKnown where
  new := fun h => by cases h
  queue := fun v e _ ho _ hc => by
    have : v.conn.st = .closed := hc
    rw [this] at ho
    simp [TSt.rank] at ho
  setState := fun v s again h => by
    intro hc
    dsimp only at hc ⊢
    unfold Conn.setState at hc ⊢
    split
    · rename_i hg
      rw [if_pos hg] at hc
      dsimp only at hc
      subst hc
      left
      simp
    · rename_i hg
      rw [if_neg hg] at hc
      exact h hc
  hd := fun v f _ h => h
  events := fun v got ctl more hi h hc => Or.inr (events_told_closed ctl more hi h hc)

/-- If a connection closes when the server takes datagrams, the application is told `closed` by the
end of the same call, also if it was told before that the connection is closing. -/
theorem C112_closed_told_partial (ops : List Op) (i : Call) (k : Nat)
    (hquiet : i.sent = true ∨ ∀ a ∈ i.outs, a.key ≠ k) (hlive : k ∈ (World.new.run ops).live)
    (hend : (((World.new.run ops).call i).conn k).st = .closed) :
    HEv.state .closed ∈ told k ((World.new.run ops).call i).evs := by
  have hi := reachable ops
  have hc := fun k => closedKnown_keeps.reachable ops k
  generalize World.new.run ops = w at *
  obtain ⟨c1, _⟩ := call_view (w := w) hquiet
  have hi1 := inv_acts i.ins hi
  have hc1 := closedKnown_keeps.acts i.ins hc
  have hl := acts_live i.ins hlive
  have e1 : ((w.call i).conn k) = (((w.acts i.ins).pass i.ctl i.more).view k).conn := congrArg View.conn c1
  have e2 : told k (w.call i).evs = (((w.acts i.ins).pass i.ctl i.more).view k).told := congrArg View.told c1
  rw [e1] at hend
  rw [e2]
  generalize w.acts i.ins = w' at *
  rw [view_pass hi1.nodup] at hend ⊢
  by_cases ha : w'.active k = true
  · rw [if_pos ⟨hi1.sub k hl, ha⟩] at hend ⊢
    exact events_told_closed _ _ (hi1.key k).asked (closedKnown_keeps.asked (hc1 k)) hend
  · rw [if_neg (fun h => ha h.2)] at hend ⊢
    have he : (w'.conn k).evs = [] := by
      cases hev : (w'.conn k).evs with
      | nil => rfl
      | cons e es =>
        refine absurd ?_ ha
        simp [World.active, hl, hev]
    rcases hc1 k hend with h | h
    · simp [World.view, he] at h
    · exact h

/-! ## States are told in order and once -/

def HSt.rank : HSt → Nat
  | .init => 0
  | .connected => 1
  | .closing => 2
  | .closed => 4

/-- The states that wait come in order after one of rank `r`. -/
def Chain : Nat → List TEv → Prop
  | _, [] => True
  | r, .state s :: es => (r < s.rank ∨ (r = s.rank ∧ 2 ≤ r)) ∧ Chain s.rank es
  | r, .data _ :: es => Chain r es
  | r, .prio _ :: es => Chain r es
  | r, .bad :: es => Chain r es

/-- The rank of the last of them. -/
def lastRank : Nat → List TEv → Nat
  | r, [] => r
  | _, .state s :: es => lastRank s.rank es
  | r, .data _ :: es => lastRank r es
  | r, .prio _ :: es => lastRank r es
  | r, .bad :: es => lastRank r es

theorem chain_mono : ∀ (es : List TEv) {r q : Nat}, q ≤ r → Chain r es → Chain q es ∧ lastRank q es ≤ lastRank r es
  | [], _, _, h, _ => ⟨trivial, h⟩
  | .state s :: es, r, q, h, hc => by
    refine ⟨⟨?_, hc.2⟩, Nat.le_refl _⟩
    rcases hc.1 with h1 | h1 <;> omega
  | .data _ :: es, _, _, h, hc => chain_mono es h hc
  | .prio _ :: es, _, _, h, hc => chain_mono es h hc
  | .bad :: es, _, _, h, hc => chain_mono es h hc

theorem chain_snoc {e : TEv} (he : ∀ s, e ≠ TEv.state s) : ∀ (es : List TEv) {r : Nat}, Chain r es →
    Chain r (es ++ [e]) ∧ lastRank r (es ++ [e]) = lastRank r es
  | [], r, _ => by
    cases e with
    | state s => exact absurd rfl (he s)
    | data n => exact ⟨trivial, rfl⟩
    | prio n => exact ⟨trivial, rfl⟩
    | bad => exact ⟨trivial, rfl⟩
  | .state s :: es, _, hc => ⟨⟨hc.1, (chain_snoc he es hc.2).1⟩, (chain_snoc he es hc.2).2⟩
  | .data _ :: es, _, hc => chain_snoc he es hc
  | .prio _ :: es, _, hc => chain_snoc he es hc
  | .bad :: es, _, hc => chain_snoc he es hc

theorem chain_state {s : TSt} : ∀ (es : List TEv) {r : Nat}, Chain r es →
    (lastRank r es < s.rank ∨ (lastRank r es = s.rank ∧ 2 ≤ s.rank)) →
    Chain r (es ++ [.state s]) ∧ lastRank r (es ++ [.state s]) = s.rank
  | [], r, _, h => by
    refine ⟨⟨?_, trivial⟩, rfl⟩
    have : lastRank r [] = r := rfl
    rw [this] at h
    rcases h with h | h <;> omega
  | .state t :: es, _, hc, h => ⟨⟨hc.1, (chain_state es hc.2 h).1⟩, (chain_state es hc.2 h).2⟩
  | .data _ :: es, _, hc, h => chain_state es hc h
  | .prio _ :: es, _, hc, h => chain_state es hc h
  | .bad :: es, _, hc, h => chain_state es hc h

theorem chain_le : ∀ (es : List TEv) {r : Nat}, Chain r es → r ≤ lastRank r es
  | [], _, _ => Nat.le_refl _
  | .state s :: es, r, hc => by
    have := chain_le es hc.2
    have h : lastRank r (TEv.state s :: es) = lastRank s.rank es := rfl
    rw [h]
    rcases hc.1 with h | h <;> omega
  | .data _ :: es, _, hc => chain_le es hc
  | .prio _ :: es, _, hc => chain_le es hc
  | .bad :: es, _, hc => chain_le es hc

theorem states_append (a b : List HEv) : states (a ++ b) = states a ++ states b := by
  induction a with
  | nil => rfl
  | cons e es ih => cases e <;> simp [states, ih]

theorem states_noPrio (l : List HEv) : states (l.filter noPrio) = states l := by
  induction l with
  | nil => rfl
  | cons e es ih =>
    rw [List.filter_cons]
    cases e <;> simp [states, noPrio, ih]

theorem mem_states {s : HSt} {l : List HEv} : s ∈ states l ↔ HEv.state s ∈ l := by
  induction l with
  | nil => simp [states]
  | cons e es ih => cases e <;> simp [states, ih]

theorem untilClosed_append {a : List HSt} (b : List HSt) (h : HSt.closed ∈ a) : untilClosed (a ++ b) = untilClosed a := by
  induction a with
  | nil => cases h
  | cons s ss ih =>
    cases s with
    | closed => rfl
    | init | connected | closing =>
      have : HSt.closed ∈ ss := by simpa using h
      simp [untilClosed, ih this]

/-- In order and each at most once, up to `closed`. -/
def Ordered (l : List HSt) : Prop := (untilClosed l).Sublist [.connected, .closing, .closed]

instance (l : List HSt) : Decidable (Ordered l) := by unfold Ordered; infer_instance

/-- What was told when the handler is in a state. -/
def Path (s : HSt) (l : List HSt) : Prop :=
  match s with
  | .init => l = []
  | .connected => l = [.connected]
  | .closing => l = [.closing] ∨ l = [.connected, .closing]
  | .closed => False

theorem Path.ordered {s : HSt} {l : List HSt} (h : Path s l) : Ordered l ∧ Ordered (l ++ [.closed]) := by
  cases s with
  | init => rw [show l = [] from h]; exact ⟨by decide, by decide⟩
  | connected => rw [show l = [.connected] from h]; exact ⟨by decide, by decide⟩
  | closing =>
    rcases (show l = [.closing] ∨ l = [.connected, .closing] from h) with h | h <;> rw [h] <;>
      exact ⟨by decide, by decide⟩
  | closed => exact absurd h id

theorem Ordered.append {a : List HSt} (h : Ordered a) (b : List HSt) (hc : HSt.closed ∈ a) : Ordered (a ++ b) := by
  unfold Ordered
  rw [untilClosed_append b hc]
  exact h

/-- The handler only adds to its reports. -/
theorem loop_adds : ∀ (es : List TEv) (h : Hd) (c : Conn), ∃ x, (Hd.loop es h c).1.1.out = h.out ++ x
  | [], h, _ => ⟨[], by simp [Hd.loop]⟩
  | .bad :: es, h, c => ⟨[.state .closed], rfl⟩
  | .data n :: es, h, c => by
    obtain ⟨x, hx⟩ := loop_adds es { h with out := h.out ++ [.data n] } c
    exact ⟨.data n :: x, by unfold Hd.loop; rw [hx]; simp⟩
  | .prio n :: es, h, c => by
    obtain ⟨x, hx⟩ := loop_adds es { h with out := h.out ++ [.prio n] } c
    exact ⟨.prio n :: x, by unfold Hd.loop; rw [hx]; simp⟩
  | .state s :: es, h, c => by
    obtain ⟨x, hx⟩ := loop_adds es (h.changed s) c
    unfold Hd.loop
    rw [hx]
    unfold Hd.changed
    cases h.st.change s with
    | none => exact ⟨x, rfl⟩
    | some t => exact ⟨.state t :: x, by simp⟩

/-- A change of state that comes in order. -/
theorem changed_path {T : List HSt} {h : Hd} {s : TSt} (hp : Path h.st (T ++ states h.out))
    (hs : h.st.rank < s.rank ∨ (h.st.rank = s.rank ∧ 2 ≤ h.st.rank)) :
    (Path (h.changed s).st (T ++ states (h.changed s).out) ∧ (h.changed s).st.rank ≤ s.rank) ∨
    (Ordered (T ++ states (h.changed s).out) ∧ HSt.closed ∈ T ++ states (h.changed s).out) := by
  unfold Hd.changed
  cases hh : h.st with
  | closed => rw [hh] at hp; exact absurd hp id
  | init =>
    rw [hh] at hp hs
    have hp' : T ++ states h.out = [] := hp
    cases s with
    | start => simp [TSt.rank, HSt.rank] at hs
    | connected =>
      left
      refine ⟨?_, Nat.le_refl 1⟩
      show T ++ states (h.out ++ [.state .connected]) = [.connected]
      rw [states_append, ← List.append_assoc, hp']; rfl
    | closing | draining =>
      left
      refine ⟨?_, by show 2 ≤ _; decide⟩
      left
      show T ++ states (h.out ++ [.state .closing]) = [.closing]
      rw [states_append, ← List.append_assoc, hp']; rfl
    | closed =>
      right
      show Ordered (T ++ states (h.out ++ [.state .closed])) ∧ HSt.closed ∈ T ++ states (h.out ++ [.state .closed])
      rw [states_append, ← List.append_assoc, hp']
      exact ⟨by decide, by decide⟩
  | connected =>
    rw [hh] at hp hs
    have hp' : T ++ states h.out = [.connected] := hp
    cases s with
    | start => simp [TSt.rank, HSt.rank] at hs
    | connected => simp [TSt.rank, HSt.rank] at hs
    | closing | draining =>
      left
      refine ⟨?_, by show 2 ≤ _; decide⟩
      right
      show T ++ states (h.out ++ [.state .closing]) = [.connected, .closing]
      rw [states_append, ← List.append_assoc, hp']; rfl
    | closed =>
      right
      show Ordered (T ++ states (h.out ++ [.state .closed])) ∧ HSt.closed ∈ T ++ states (h.out ++ [.state .closed])
      rw [states_append, ← List.append_assoc, hp']
      exact ⟨by decide, by decide⟩
  | closing =>
    rw [hh] at hp hs
    cases s with
    | start => simp [TSt.rank, HSt.rank] at hs
    | connected => simp [TSt.rank, HSt.rank] at hs
    | closing | draining =>
      left
      refine ⟨?_, ?_⟩
      · show Path h.st _
        rw [hh]
        exact hp
      · show h.st.rank ≤ _
        rw [hh]
        decide
    | closed =>
      right
      show Ordered (T ++ states (h.out ++ [.state .closed])) ∧ HSt.closed ∈ T ++ states (h.out ++ [.state .closed])
      rw [states_append, ← List.append_assoc]
      exact ⟨hp.ordered.2, by simp [states]⟩

theorem loop_states (T : List HSt) : ∀ (es : List TEv) (h : Hd) (c : Conn), Chain h.st.rank es →
    Path h.st (T ++ states h.out) →
    Ordered (T ++ states (Hd.loop es h c).1.1.out) ∧
    (HSt.closed ∈ T ++ states (Hd.loop es h c).1.1.out ∨
      (Path (Hd.loop es h c).1.1.st (T ++ states (Hd.loop es h c).1.1.out) ∧
        (Hd.loop es h c).1.1.st.rank ≤ lastRank h.st.rank es))
  | [], h, c, _, hp => ⟨hp.ordered.1, Or.inr ⟨hp, Nat.le_refl _⟩⟩
  | .bad :: es, h, c, _, hp => by
    show Ordered (T ++ states (h.out ++ [.state .closed])) ∧ (HSt.closed ∈ T ++ states (h.out ++ [.state .closed]) ∨ _)
    rw [states_append, ← List.append_assoc]
    exact ⟨hp.ordered.2, Or.inl (by simp [states])⟩
  | .data n :: es, h, c, hc, hp => by
    unfold Hd.loop
    exact loop_states T es { h with out := h.out ++ [.data n] } c hc (by
      show Path h.st (T ++ states (h.out ++ [.data n]))
      rw [states_append]
      simpa [states] using hp)
  | .prio n :: es, h, c, hc, hp => by
    unfold Hd.loop
    exact loop_states T es { h with out := h.out ++ [.prio n] } c hc (by
      show Path h.st (T ++ states (h.out ++ [.prio n]))
      rw [states_append]
      simpa [states] using hp)
  | .state s :: es, h, c, hc, hp => by
    unfold Hd.loop
    rcases changed_path hp hc.1 with ⟨h1, h2⟩ | ⟨h1, h2⟩
    · obtain ⟨k1, k2⟩ := chain_mono es h2 hc.2
      obtain ⟨a, b⟩ := loop_states T es (h.changed s) c k1 h1
      refine ⟨a, ?_⟩
      rcases b with b | b
      · exact Or.inl b
      · exact Or.inr ⟨b.1, Nat.le_trans b.2 k2⟩
    · obtain ⟨x, hx⟩ := loop_adds es (h.changed s) c
      rw [hx, states_append, ← List.append_assoc]
      exact ⟨h1.append _ h2, Or.inl (List.mem_append_left _ h2)⟩

/-- What is true of one connection. -/
def InOrder (v : View) : Prop :=
  Ordered (states v.told) ∧
  (HSt.closed ∈ states v.told ∨
    (Path (v.hd.getD Hd.new).st (states v.told) ∧ Chain (v.hd.getD Hd.new).st.rank v.conn.evs ∧
      lastRank (v.hd.getD Hd.new).st.rank v.conn.evs ≤ v.conn.st.rank))

theorem inOrder_events {v : View} {got : List Nat} (ctl more : Bool) (hi : KInv v got) (h : InOrder v) :
    InOrder (v.events ctl more) := by
  obtain ⟨h1, h2, _⟩ := hi.used
  obtain ⟨r1, r2, r3⟩ := run_out (v.hd.getD Hd.new) v.conn ctl more h2
  obtain ⟨o, ho⟩ := h
  have ht : states (v.events ctl more).told =
      states v.told ++ states (Hd.loop v.conn.evs (v.hd.getD Hd.new) v.conn).1.1.out := by
    show states (v.told ++ _) = _
    rw [states_append, states_noPrio, r1]
  rcases ho with hc | ⟨hp, hch, hl⟩
  · unfold InOrder
    rw [ht]
    exact ⟨o.append _ hc, Or.inl (List.mem_append_left _ hc)⟩
  · obtain ⟨a, b⟩ := loop_states (states v.told) v.conn.evs (v.hd.getD Hd.new) v.conn hch (by
      rw [h1]; simpa [states] using hp)
    refine ⟨by rw [ht]; exact a, ?_⟩
    rcases b with b | ⟨b1, b2⟩
    · exact Or.inl (by rw [ht]; exact b)
    · by_cases hany : ((v.hd.getD Hd.new).run v.conn ctl more).1.out.any isClosed = true
      · left
        rw [ht, ← r1]
        obtain ⟨e, he, hec⟩ := List.any_eq_true.mp hany
        refine List.mem_append_right _ (mem_states.mpr ?_)
        cases e with
        | state s =>
          cases s with
          | closed => exact he
          | init | connected | closing => cases hec
        | data n => cases hec
        | prio n => cases hec
      · right
        have hhd : ((v.events ctl more).hd.getD Hd.new).st = (Hd.loop v.conn.evs (v.hd.getD Hd.new) v.conn).1.1.st := by
          show (Option.getD (if _ then none else _) Hd.new).st = _
          rw [if_neg hany]
          exact r2
        have hl' := loop_ran v.conn.evs (v.hd.getD Hd.new) v.conn
        have hconn : (v.events ctl more).conn = (Hd.loop v.conn.evs (v.hd.getD Hd.new) v.conn).1.2 := r3
        rw [hhd, ht, hconn]
        cases hok : (Hd.loop v.conn.evs (v.hd.getD Hd.new) v.conn).2 with
        | true =>
          exfalso
          rw [hok] at hl'
          have := (hl'.fail rfl).1
          rw [← r1] at this
          exact hany (List.any_eq_true.mpr ⟨_, this, rfl⟩)
        | false =>
          rw [hok] at hl'
          rw [hl'.good rfl]
          exact ⟨b1, trivial, Nat.le_trans b2 hl⟩

theorem inOrder_keeps : Keeps InOrder where
  new := ⟨by decide, Or.inr ⟨rfl, trivial, Nat.le_refl _⟩⟩
  queue := fun v e he ho h => by
    refine ⟨h.1, ?_⟩
    rcases h.2 with h | ⟨a, b, c⟩
    · exact Or.inl h
    · obtain ⟨k1, k2⟩ := chain_snoc he v.conn.evs b
      exact Or.inr ⟨a, k1, by dsimp only; rw [k2]; exact c⟩
  setState := fun v s again h => by
    refine ⟨h.1, ?_⟩
    rcases h.2 with h | ⟨a, b, c⟩
    · exact Or.inl h
    · right
      dsimp only
      unfold Conn.setState
      split
      · rename_i hg
        have hr : lastRank (v.hd.getD Hd.new).st.rank v.conn.evs < s.rank ∨
            (lastRank (v.hd.getD Hd.new).st.rank v.conn.evs = s.rank ∧ 2 ≤ s.rank) := by
          rcases hg with hg | ⟨hg, h2, _⟩
          · left; omega
          · rw [hg] at c; omega
        dsimp only
        split
        · have hle := chain_le _ b
          exact ⟨a, ⟨by rcases hr with hr | hr <;> omega, trivial⟩, Nat.le_refl _⟩
        · obtain ⟨k1, k2⟩ := chain_state v.conn.evs b hr
          exact ⟨a, k1, by rw [k2]; exact Nat.le_refl _⟩
      · exact ⟨a, b, c⟩
  hd := fun v f hf h => by
    refine ⟨h.1, ?_⟩
    have : ((v.hd.map f).getD Hd.new).st = (v.hd.getD Hd.new).st := by
      cases v.hd with
      | none => rfl
      | some g => exact (hf g).1
    dsimp only
    rw [this]
    exact h.2
  events := fun _ _ ctl more hi h => inOrder_events ctl more hi h

/-- Until an application is told that a connection is closed, it is told `connected` and `closing` in
this order and each at most once.  What is told after that is the subject of
`C112_closing_after_closed`. -/
theorem C112_states_in_order (ops : List Op) (k : Nat) :
    (untilClosed (states (told k (World.new.run ops).evs))).Sublist [.connected, .closing, .closed] :=
  (inOrder_keeps.reachable ops k).1

/-! ## GOAWAY is not lost -/

theorem acts_hs : ∀ (l : List Act) (w : World), (w.acts l).hs = w.hs
  | [], _ => rfl
  | a :: l, w => by
    have h : (w.act a).hs = w.hs := by
      cases a <;> unfold World.act <;> dsimp only <;> split <;> rfl
    exact (acts_hs l (w.act a)).trans h

theorem loop_goaway : ∀ (es : List TEv) (h : Hd) (c : Conn),
    (Hd.loop es h c).1.1.sent = h.sent ∧ (Hd.loop es h c).1.1.buf = h.buf
  | [], _, _ => ⟨rfl, rfl⟩
  | .bad :: es, h, c => ⟨rfl, rfl⟩
  | .data n :: es, h, c => loop_goaway es { h with out := h.out ++ [.data n] } c
  | .prio n :: es, h, c => loop_goaway es { h with out := h.out ++ [.prio n] } c
  | .state s :: es, h, c => by
    unfold Hd.loop
    obtain ⟨a, b⟩ := loop_goaway es (h.changed s) c
    rw [a, b]
    unfold Hd.changed
    cases h.st.change s <;> exact ⟨rfl, rfl⟩

theorem sending_goaway (h : Hd) (ctl more : Bool) :
    (h.sending ctl more).sent ++ (h.sending ctl more).buf = h.sent ++ h.buf ∧ h.sent <+: (h.sending ctl more).sent := by
  unfold Hd.sending
  split
  · cases ctl <;> simp
  · exact ⟨rfl, List.prefix_refl _⟩

theorem run_goaway (h : Hd) (c : Conn) (ctl more : Bool) :
    (h.run c ctl more).1.sent ++ (h.run c ctl more).1.buf = h.sent ++ h.buf ∧ h.sent <+: (h.run c ctl more).1.sent := by
  unfold Hd.run
  split
  · exact ⟨rfl, List.prefix_refl _⟩
  · obtain ⟨a, b⟩ := loop_goaway c.evs h c
    rcases hl : Hd.loop c.evs h c with ⟨⟨h', c'⟩, ok⟩
    rw [hl] at a b
    dsimp only at a b
    cases ok with
    | true => dsimp only; rw [a, b]; exact ⟨rfl, List.prefix_refl _⟩
    | false =>
      obtain ⟨x, y⟩ := sending_goaway h' ctl more
      dsimp only
      rw [x, a, b]
      rw [a] at y
      exact ⟨rfl, y⟩

/-- Whatever happens in a call, as long as a handler remains each `GOAWAY` that was to be sent
is sent or still waits, in order, and none is sent again. -/
theorem C112_goaway_kept (ops : List Op) (i : Call) (k : Nat) (h h' : Hd)
    (hh : (World.new.run ops).hs k = some h) (hh' : ((World.new.run ops).call i).hs k = some h') :
    h'.sent ++ h'.buf = h.sent ++ h.buf ∧ h.sent <+: h'.sent := by
  have hi := inv_acts i.ins (reachable ops)
  generalize World.new.run ops = w at *
  have e : (w.call i).hs k = (((w.acts i.ins).pass i.ctl i.more).view k).hd := by
    unfold World.call
    dsimp only
    split
    · rfl
    · split
      · exact congrFun (acts_hs _ _) k
      · exact congrFun (acts_hs _ _) k
  rw [e, view_pass hi.nodup] at hh'
  have ha : ((w.acts i.ins).view k).asked.hd = some { h with needs := false } := by
    show ((w.acts i.ins).hs k).map _ = _
    rw [acts_hs, hh]
    rfl
  split at hh'
  · obtain ⟨x, y⟩ := run_goaway { h with needs := false } ((w.acts i.ins).view k).asked.conn (i.ctl k) (i.more k)
    unfold View.events at hh'
    rw [ha] at hh'
    dsimp only [Option.getD] at hh'
    split at hh'
    · cases hh'
    · injection hh' with hh'
      subst hh'
      exact ⟨x, y⟩
  · rw [ha] at hh'
    injection hh' with hh'
    subst hh'
    exact ⟨rfl, List.prefix_refl _⟩

/-! ## Examples -/

/-- Two `GOAWAY`s wait for the control stream. -/
def blockedCall : Call := { quiet [.data 0 6] [] with ctl := fun _ => false }

example : ∃ h h', (World.new.run [.call (quiet [.accept 0, .state 0 .connected false] []), .goaway 4, .goaway 0]).hs 0 = some h ∧
    ((World.new.run [.call (quiet [.accept 0, .state 0 .connected false] []), .goaway 4, .goaway 0]).call blockedCall).hs 0 = some h' ∧
    h'.buf = [4, 0] ∧ h'.sent = [] := by
  refine ⟨_, _, rfl, rfl, ?_⟩
  decide

/-- A connection that closes after it was told to be closing. -/
def closeRun : List Op :=
  [.call (quiet [.accept 0, .state 0 .connected false, .data 0 5] []), .call (quiet [.state 0 .closing false] [])]

example : 0 ∈ (World.new.run closeRun).live ∧
    (((World.new.run closeRun).call (quiet [.state 0 .closing true, .state 0 .closed false] [])).conn 0).st = .closed ∧
    told 0 ((World.new.run closeRun).call (quiet [.state 0 .closing true, .state 0 .closed false] [])).evs =
      [.state .connected, .data 5, .state .closing, .state .closed] := by decide

end Neqo.H3s
