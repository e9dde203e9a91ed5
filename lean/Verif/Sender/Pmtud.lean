import Verif.Lib.Basic

/-!
# Path MTU discovery: `neqo-transport/src/pmtud.rs`

Sizes are those of IP packets, with headers, as in the code; `plpmtu` and `probeSize` are UDP
payloads.  Times are in seconds.
-/
namespace Neqo.Pmtud

/-- `MTU_SIZES_V4` and `MTU_SIZES_V6` (pmtud.rs:29-33), `Pmtud::search_table` (pmtud.rs:67-72). -/
def table (v6 : Bool) : List Nat :=
  [1280, 1380, 1420, bif v6 then 1470 else 1472, 1500, 2047, 4095, 8191, 16383, 32767, 65535]

/-- An entry of the table; the code indexes it, which panics for indices over 10. -/
def tbl (v6 : Bool) (i : Nat) : Nat := (table v6).getD i 0

/-- `Pmtud::header_size` (pmtud.rs:76-81). -/
def headerSize (v6 : Bool) : Nat := bif v6 then 48 else 28

/-- `enum Probe` (pmtud.rs:41-46). -/
inductive Probe where
  | notNeeded | needed | sent
  deriving Repr, DecidableEq

/-- `struct Pmtud` (pmtud.rs:48-63), without the log.  No `iface` stands for `usize::MAX`. -/
structure Pm where
  v6 : Bool
  iface : Option Nat
  peer : Option Nat
  mtu : Nat
  index : Nat
  count : Nat
  state : Probe
  raise : Option Nat
  deriving Repr, DecidableEq

/-- `Pmtud::new` (pmtud.rs:84-99) and `set_peer_max_udp_payload` (pmtud.rs:117-119), which is called
before anything else (connection/mod.rs:3117-3119, path.rs:102-104). -/
def Pm.new (v6 : Bool) (iface peer : Option Nat) : Pm :=
  { v6, iface, peer, mtu := tbl v6 0, index := 0, count := 0, state := .notNeeded, raise := none }

/-- `Pmtud::set_mtu` (pmtud.rs:105-114). -/
def Pm.setMtu (p : Pm) (i : Nat) : Pm := { p with mtu := tbl p.v6 i }

/-- `Pmtud::plpmtu` (pmtud.rs:139-141). -/
def Pm.plpmtu (p : Pm) : Nat := p.mtu - headerSize p.v6

/-- `Pmtud::probe_size` (pmtud.rs:151-153). -/
def Pm.probeSize (p : Pm) : Nat := tbl p.v6 p.index - headerSize p.v6

/-- `Pmtud::send_probe` (pmtud.rs:156-175), which is called only if `needs_probe` (pmtud.rs:145-147;
connection/mod.rs:2583-2594). -/
def Pm.sendProbe (p : Pm) : Pm := { p with count := p.count + 1, state := .sent }

/-- `Pmtud::stop` (pmtud.rs:215-226); the timer is `PMTU_RAISE_TIMER` (pmtud.rs:39). -/
def Pm.stop (p : Pm) (i now : Nat) : Pm :=
  { p with state := .notNeeded, index := i, mtu := tbl p.v6 i, count := 0, raise := some (now + 600) }

/-- The limit in `Pmtud::next` (pmtud.rs:277-279): is the size over it? -/
def Pm.over (p : Pm) (size : Nat) : Bool :=
  (match p.iface with | none => false | some n => decide (n < size)) ||
  (match p.peer with | none => false | some n => decide (n + headerSize p.v6 < size))

/-- `Pmtud::next` (pmtud.rs:267-296). -/
def Pm.next (p : Pm) (now : Nat) : Pm :=
  if p.index = 10 then p.stop p.index now
  else if p.over (tbl p.v6 (p.index + 1)) then p.stop p.index now
  else { p with state := .needed, count := 0, index := p.index + 1 }

/-- `Pmtud::maybe_fire_raise_timer` (pmtud.rs:128-134). -/
def Pm.timer (p : Pm) (now : Nat) : Pm :=
  match p.state, p.raise with
  | .notNeeded, some t => if t ≤ now then { p with raise := none }.next now else p
  | _, _ => p

/-- `Pmtud::on_packets_acked` (pmtud.rs:192-212) for `n` probes. -/
def Pm.acked (p : Pm) (n now : Nat) : Pm :=
  if n = 0 then p else (p.next now).setMtu p.index

/-- `Pmtud::on_packets_lost` (pmtud.rs:230-255) for `n` probes; `MAX_PROBES` is 3 (pmtud.rs:38). -/
def Pm.lost (p : Pm) (n now : Nat) : Pm :=
  if n = 0 then p
  else if 3 ≤ p.count then p.stop (p.index - 1) now
  else { p with state := .needed }

/-- `Pmtud::start` (pmtud.rs:258-264). -/
def Pm.start (p : Pm) (now : Nat) : Pm :=
  ({ p with index := 0, raise := none }.next now).setMtu 0

/-! ## Histories -/

/-- What can happen.  The probes are numbered in the order in which they are sent; packets are
acknowledged or declared lost in groups, of which the numbers of the probes in them are given. -/
inductive Op where
  | start (now : Nat)
  | timer (now : Nat)
  | probe
  | acked (ids : List Nat) (now : Nat)
  | lost (ids : List Nat) (now : Nat)
  deriving Repr, DecidableEq

/-- The state, with what an observer sees: the sizes of the probes sent, the numbers of those that
were neither acknowledged nor declared lost, and the sizes acknowledged since the last start. -/
structure W where
  p : Pm
  sent : List Nat
  unresolved : List Nat
  confirmed : List Nat
  deriving Repr, DecidableEq

def W.new (v6 : Bool) (iface peer : Option Nat) : W := ⟨Pm.new v6 iface peer, [], [], []⟩

/-- The size of a probe. -/
def W.size (w : W) (id : Nat) : Nat := w.sent.getD id 0

def step (w : W) : Op → W
  | .start now => { w with p := w.p.start now, confirmed := [] }
  | .timer now => { w with p := w.p.timer now }
  | .probe =>
    if w.p.state = .needed then
      { w with p := w.p.sendProbe, sent := w.sent ++ [w.p.probeSize + headerSize w.p.v6], unresolved := w.sent.length :: w.unresolved }
    else w
  | .acked ids now =>
    { w with p := w.p.acked ids.length now, unresolved := w.unresolved.filter (· ∉ ids),
             confirmed := w.confirmed ++ ids.map w.size }
  | .lost ids now =>
    { w with p := w.p.lost ids.length now, unresolved := w.unresolved.filter (· ∉ ids) }

def run (w : W) (ops : List Op) : W := ops.foldl step w

/-! ## Specification -/

/-- Sizes that the interface can send and the peer accepts. -/
def Allowed (v6 : Bool) (iface peer : Option Nat) (size : Nat) : Prop :=
  (∀ n, iface = some n → size ≤ n) ∧ (∀ n, peer = some n → size ≤ n + headerSize v6)

/-- A history in which the acknowledgment of a probe never comes after it was declared lost, and
the search starts anew only when no probe is on its way. -/
def Orderly : W → List Op → Prop
  | _, [] => True
  | w, op :: ops => (match op with
    | .start _ => w.unresolved = []
    | .acked ids _ => (∀ i ∈ ids, i ∈ w.unresolved) ∧ ids.Nodup
    | .lost ids _ => (∀ i ∈ ids, i ∈ w.unresolved) ∧ ids.Nodup
    | _ => True) ∧ Orderly (step w op) ops

/-- On a path for packets of at most `size` bytes probes are acknowledged if they are not longer. -/
def Through (size : Nat) : W → List Op → Prop
  | _, [] => True
  | w, op :: ops => (match op with
    | .acked ids _ => ∀ i ∈ ids, w.size i ≤ size
    | .lost ids _ => ∀ i ∈ ids, size < w.size i
    | _ => True) ∧ Through size (step w op) ops

/-- The largest size of the table that is allowed and gets through, or the smallest of the table. -/
def Best (v6 : Bool) (iface peer : Option Nat) (size mtu : Nat) : Prop :=
  mtu ∈ table v6 ∧ (mtu = 1280 ∨ (mtu ≤ size ∧ Allowed v6 iface peer mtu)) ∧
    ∀ s ∈ table v6, s ≤ size → Allowed v6 iface peer s → s ≤ mtu

/-! ## Lemmas -/

theorem tbl_mem : ∀ v6 i, i ≤ 10 → tbl v6 i ∈ table v6 := by
  intro v6 i h
  have : ∀ v6, ∀ i : Fin 11, tbl v6 i.val ∈ table v6 := by decide
  exact this v6 ⟨i, by omega⟩

theorem mem_tbl {v6 : Bool} {s : Nat} (h : s ∈ table v6) : ∃ i, i ≤ 10 ∧ s = tbl v6 i := by
  have h2 : ∀ v6, ∀ s ∈ table v6, ∃ i : Fin 11, s = tbl v6 i.val := by decide
  obtain ⟨i, hi⟩ := h2 v6 s h
  exact ⟨i.val, by omega, hi⟩

theorem tbl_lt : ∀ v6 i j, i < j → j ≤ 10 → tbl v6 i < tbl v6 j := by
  intro v6 i j h hj
  have : ∀ v6, ∀ i j : Fin 11, i < j → tbl v6 i.val < tbl v6 j.val := by decide
  exact this v6 ⟨i, by omega⟩ ⟨j, by omega⟩ h

theorem tbl_zero (v6 : Bool) : tbl v6 0 = 1280 := by cases v6 <;> rfl

theorem tbl_ge {v6 : Bool} {i : Nat} (h : i ≤ 10) : 1280 ≤ tbl v6 i := by
  rcases Nat.eq_zero_or_pos i with rfl | hp
  · rw [tbl_zero]; omega
  · have := tbl_lt v6 0 i hp h
    rw [tbl_zero] at this; omega

theorem header_le (v6 : Bool) : headerSize v6 ≤ 48 ∧ 28 ≤ headerSize v6 := by cases v6 <;> decide

theorem over_iff {p : Pm} {s : Nat} : p.over s = false ↔ Allowed p.v6 p.iface p.peer s := by
  unfold Pm.over Allowed
  cases p.iface <;> cases p.peer <;> simp

theorem allowed_le {v6 : Bool} {i p : Option Nat} {s t : Nat} (h : Allowed v6 i p s) (hl : t ≤ s) : Allowed v6 i p t :=
  ⟨fun n hn => Nat.le_trans hl (h.1 n hn), fun n hn => Nat.le_trans hl (h.2 n hn)⟩

/-- What `next` does. -/
theorem next_cases (p : Pm) (now : Nat) :
    (p.next now = p.stop p.index now ∧ (p.index = 10 ∨ ¬ Allowed p.v6 p.iface p.peer (tbl p.v6 (p.index + 1)))) ∨
    (p.next now = { p with state := .needed, count := 0, index := p.index + 1 } ∧ p.index ≠ 10 ∧
      Allowed p.v6 p.iface p.peer (tbl p.v6 (p.index + 1))) := by
  unfold Pm.next
  by_cases h : p.index = 10
  · rw [if_pos h]; exact .inl ⟨rfl, .inl h⟩
  · rw [if_neg h]
    by_cases ho : p.over (tbl p.v6 (p.index + 1)) = true
    · rw [if_pos ho]
      refine .inl ⟨rfl, .inr ?_⟩
      rw [← over_iff, ho]; simp
    · rw [if_neg ho]
      exact .inr ⟨rfl, h, over_iff.mp (by simpa using ho)⟩

/-- What holds in all histories. -/
structure G (v6 : Bool) (iface peer : Option Nat) (p : Pm) : Prop where
  hv6 : p.v6 = v6
  hiface : p.iface = iface
  hpeer : p.peer = peer
  index : p.index ≤ 10
  mtu : p.mtu = tbl v6 p.index ∨ ∃ j, p.index = j + 1 ∧ p.mtu = tbl v6 j
  allowed : p.index = 0 ∨ Allowed v6 iface peer (tbl v6 p.index)
  count : p.count ≤ 3
  needed : p.state = .needed → p.count ≤ 2
  stopped : p.state = .notNeeded → p.mtu = tbl v6 p.index

theorem G.stop {v6 iface peer p} (h : G v6 iface peer p) (i now : Nat) (hi : i ≤ p.index) : G v6 iface peer (p.stop i now) := by
  unfold Pm.stop
  refine ⟨h.hv6, h.hiface, h.hpeer, by have := h.index; dsimp only; omega, .inl (by rw [h.hv6]), ?_, by dsimp only; omega,
    (by intro hh; cases hh), fun _ => by rw [h.hv6]⟩
  dsimp only
  rcases Nat.eq_zero_or_pos i with h0 | hp
  · exact .inl h0
  · rcases h.allowed with ha | ha
    · omega
    · right
      rcases Nat.lt_or_ge i p.index with hlt | hge
      · exact allowed_le ha (Nat.le_of_lt (tbl_lt v6 _ _ hlt h.index))
      · rw [show i = p.index by omega]; exact ha

/-- `next` and then `set_mtu`, from a state with any MTU. -/
theorem G.next_set {v6 iface peer} {p : Pm} (h1 : p.v6 = v6) (h2 : p.iface = iface) (h3 : p.peer = peer)
    (h4 : p.index ≤ 10) (h5 : p.index = 0 ∨ Allowed v6 iface peer (tbl v6 p.index)) (now : Nat) :
    G v6 iface peer ((p.next now).setMtu p.index) := by
  rcases next_cases p now with ⟨h, _⟩ | ⟨h, hi, ha⟩ <;> rw [h]
  · exact ⟨h1, h2, h3, h4, .inl (by simp [Pm.setMtu, Pm.stop, h1]), h5, by simp [Pm.setMtu, Pm.stop],
      (by intro hh; cases hh), fun _ => by simp [Pm.setMtu, Pm.stop, h1]⟩
  · refine ⟨h1, h2, h3, by simp only [Pm.setMtu]; omega, .inr ⟨p.index, rfl, by simp [Pm.setMtu, h1]⟩,
      .inr ?_, by simp [Pm.setMtu], by simp [Pm.setMtu], by intro hh; cases hh⟩
    rw [h1, h2, h3] at ha
    exact ha

theorem G.start {v6 iface peer p} (h : G v6 iface peer p) (now : Nat) : G v6 iface peer (p.start now) :=
  G.next_set (p := { p with index := 0, raise := none }) h.hv6 h.hiface h.hpeer (by dsimp only; omega) (.inl rfl) now

theorem G.acked {v6 iface peer p} (h : G v6 iface peer p) (n now : Nat) : G v6 iface peer (p.acked n now) := by
  unfold Pm.acked
  split
  · exact h
  · exact G.next_set h.hv6 h.hiface h.hpeer h.index h.allowed now

theorem G.lost {v6 iface peer p} (h : G v6 iface peer p) (n now : Nat) : G v6 iface peer (p.lost n now) := by
  unfold Pm.lost
  by_cases h0 : n = 0
  · rw [if_pos h0]; exact h
  · rw [if_neg h0]
    by_cases hc : 3 ≤ p.count
    · rw [if_pos hc]; exact h.stop _ _ (by omega)
    · rw [if_neg hc]
      exact ⟨h.hv6, h.hiface, h.hpeer, h.index, h.mtu, h.allowed, h.count, fun _ => by dsimp only; omega, by intro hh; cases hh⟩

theorem timer_cases (p : Pm) (now : Nat) :
    p.timer now = p ∨ (p.state = .notNeeded ∧ p.timer now = { p with raise := none }.next now) := by
  unfold Pm.timer
  split
  · rename_i hs _
    split
    · exact .inr ⟨hs, rfl⟩
    · exact .inl rfl
  · exact .inl rfl

theorem next_setMtu_self {p : Pm} (now : Nat) (h : p.mtu = tbl p.v6 p.index) : (p.next now).setMtu p.index = p.next now := by
  rcases next_cases p now with ⟨h', _⟩ | ⟨h', _⟩ <;> rw [h'] <;> simp [Pm.setMtu, Pm.stop, h]

theorem G.timer {v6 iface peer p} (h : G v6 iface peer p) (now : Nat) : G v6 iface peer (p.timer now) := by
  rcases timer_cases p now with ht | ⟨hs, ht⟩ <;> rw [ht]
  · exact h
  · rw [← next_setMtu_self now (by rw [h.hv6]; exact h.stopped hs)]
    exact G.next_set (p := { p with raise := none }) h.hv6 h.hiface h.hpeer h.index h.allowed now

theorem G.new (v6 : Bool) (iface peer : Option Nat) : G v6 iface peer (Pm.new v6 iface peer) :=
  ⟨rfl, rfl, rfl, Nat.zero_le _, .inl rfl, .inl rfl, Nat.zero_le _, (by intro h; cases h), fun _ => rfl⟩

theorem probe_total {v6 iface peer p} (h : G v6 iface peer p) : p.probeSize + headerSize p.v6 = tbl v6 p.index := by
  unfold Pm.probeSize
  have := tbl_ge (v6 := v6) h.index
  have := (header_le v6).1
  rw [h.hv6]; omega

theorem G.step {v6 iface peer} {w : W} (h : G v6 iface peer w.p) (op : Op) : G v6 iface peer (step w op).p := by
  cases op with
  | start now => exact h.start now
  | timer now => exact h.timer now
  | probe =>
    unfold Pmtud.step
    dsimp only
    split
    · rename_i hn
      have := h.needed hn
      exact ⟨h.hv6, h.hiface, h.hpeer, h.index, h.mtu, h.allowed, by simp only [Pm.sendProbe]; omega, (by intro hh; cases hh), (by intro hh; cases hh)⟩
    · exact h
  | acked ids now => exact h.acked _ _
  | lost ids now => exact h.lost _ _

theorem G.run {v6 iface peer} (ops : List Op) : ∀ {w : W}, G v6 iface peer w.p → G v6 iface peer (run w ops).p := by
  induction ops with
  | nil => intro w h; exact h
  | cons op ops ih => intro w h; exact ih (h.step op)

theorem sent_allowed {v6 iface peer} (ops : List Op) : ∀ {w : W}, G v6 iface peer w.p →
    (∀ s ∈ w.sent, s ∈ table v6 ∧ (s = 1280 ∨ Allowed v6 iface peer s)) →
    ∀ s ∈ (Pmtud.run w ops).sent, s ∈ table v6 ∧ (s = 1280 ∨ Allowed v6 iface peer s) := by
  induction ops with
  | nil => intro w _ h; exact h
  | cons op ops ih =>
    intro w h hs
    refine ih (h.step op) ?_
    cases op with
    | probe =>
      unfold Pmtud.step
      dsimp only
      split
      · intro s hm
        rcases List.mem_append.mp hm with hm | hm
        · exact hs s hm
        · rw [List.mem_singleton.mp hm, probe_total h]
          refine ⟨tbl_mem v6 _ h.index, ?_⟩
          rcases h.allowed with h0 | ha
          · left; rw [h0, tbl_zero]
          · exact .inr ha
      · exact hs
    | _ => exact hs

/-! ## The properties -/

/-- C80: whatever is acknowledged or lost, in whatever order, the MTU is one of the table, so that
at least 1232 bytes of payload can be sent; over the smallest it never exceeds what the interface can
send or the peer accepts; and neither do the probes, which are never smaller than the MTU.  (There
is no panic: indices are in the table and nothing is subtracted from something smaller.) -/
theorem C80_bounds (v6 : Bool) (iface peer : Option Nat) (ops : List Op) (w : W) (hw : run (W.new v6 iface peer) ops = w) :
    w.p.mtu ∈ table v6 ∧ 1232 ≤ w.p.plpmtu ∧ (w.p.mtu = 1280 ∨ Allowed v6 iface peer w.p.mtu) ∧
      (∀ s ∈ w.sent, s ∈ table v6 ∧ (s = 1280 ∨ Allowed v6 iface peer s)) ∧
      w.p.plpmtu ≤ w.p.probeSize ∧ w.p.index ≤ 10 := by
  subst hw
  have h := G.run ops (w := W.new v6 iface peer) (G.new v6 iface peer)
  have hs := sent_allowed ops (w := W.new v6 iface peer) (G.new v6 iface peer) (by intro s hs; cases hs)
  generalize run (W.new v6 iface peer) ops = w at *
  obtain ⟨j, hj, hm, hle⟩ : ∃ j, j ≤ w.p.index ∧ w.p.mtu = tbl v6 j ∧ tbl v6 j ≤ tbl v6 w.p.index := by
    rcases h.mtu with hm | ⟨j, hj, hm⟩
    · exact ⟨_, Nat.le_refl _, hm, Nat.le_refl _⟩
    · exact ⟨j, by omega, hm, Nat.le_of_lt (tbl_lt v6 _ _ (by omega) h.index)⟩
  have hi := h.index
  have hge := tbl_ge (v6 := v6) (i := j) (by omega)
  have hh := (header_le v6).1
  refine ⟨by rw [hm]; exact tbl_mem v6 j (by omega), ?_, ?_, hs, ?_, hi⟩
  · unfold Pm.plpmtu; rw [hm, h.hv6]; omega
  · rcases h.allowed with h0 | ha
    · left; rw [hm, show j = 0 by omega, tbl_zero]
    · right; rw [hm]; exact allowed_le ha hle
  · unfold Pm.plpmtu Pm.probeSize; rw [hm, h.hv6]; omega

/-- What holds in orderly histories. -/
structure O (v6 : Bool) (iface peer : Option Nat) (w : W) : Prop where
  g : G v6 iface peer w.p
  conf : w.p.mtu = 1280 ∨ w.p.mtu ∈ w.confirmed
  shape : (w.p.state = .notNeeded ∧ w.unresolved = []) ∨
    (w.p.state = .needed ∧ w.unresolved = [] ∧ ∃ j, w.p.index = j + 1 ∧ w.p.mtu = tbl v6 j) ∨
    (w.p.state = .sent ∧ (∃ j, w.p.index = j + 1 ∧ w.p.mtu = tbl v6 j) ∧
      ∃ l, w.sent = l ++ [tbl v6 w.p.index] ∧ w.unresolved = [l.length])

theorem nodup_of_mem_singleton {ids : List Nat} {n : Nat} (h : ∀ i ∈ ids, i ∈ [n]) (hn : ids.Nodup) : ids = [] ∨ ids = [n] := by
  cases ids with
  | nil => exact .inl rfl
  | cons a t =>
    right
    have ha : a = n := List.mem_singleton.mp (h a List.mem_cons_self)
    cases t with
    | nil => rw [ha]
    | cons b t =>
      have hb : b = n := List.mem_singleton.mp (h b (List.mem_cons_of_mem _ List.mem_cons_self))
      rw [ha, hb] at hn
      simp at hn

theorem ids_of_nil {ids : List Nat} (h : ∀ i ∈ ids, i ∈ ([] : List Nat)) : ids = [] := by
  cases ids with
  | nil => rfl
  | cons a t => exact absurd (h a List.mem_cons_self) (by simp)

/-- After `next`: stopped, or the next size is needed. -/
theorem next_state {p : Pm} {v6 : Bool} (hv : p.v6 = v6) (now i : Nat) (hi : i = p.index) :
    (((p.next now).setMtu i).state = .notNeeded ∨ (((p.next now).setMtu i).state = .needed ∧
      ∃ j, ((p.next now).setMtu i).index = j + 1 ∧ ((p.next now).setMtu i).mtu = tbl v6 j)) ∧
      ((p.next now).setMtu i).mtu = tbl v6 p.index := by
  subst hi
  rcases next_cases p now with ⟨h, _⟩ | ⟨h, _⟩ <;> rw [h]
  · exact ⟨.inl rfl, by simp [Pm.setMtu, Pm.stop, hv]⟩
  · exact ⟨.inr ⟨rfl, p.index, rfl, by simp [Pm.setMtu, hv]⟩, by simp [Pm.setMtu, hv]⟩

theorem filter_self (n : Nat) : ([n] : List Nat).filter (· ∉ [n]) = [] := by simp

theorem size_last {w : W} {l : List Nat} {s : Nat} (h : w.sent = l ++ [s]) : w.size l.length = s := by
  simp [W.size, h, List.getD]

theorem O.step {v6 iface peer} {w : W} (h : O v6 iface peer w) (op : Op) (ops : List Op) (ho : Orderly w (op :: ops)) :
    O v6 iface peer (step w op) := by
  obtain ⟨ho, _⟩ := ho
  have hg := h.g.step op
  cases op with
  | start now =>
    dsimp only at ho
    obtain ⟨hs, hm⟩ := next_state (p := { w.p with index := 0, raise := none }) h.g.hv6 now 0 rfl
    refine ⟨hg, .inl (hm.trans (tbl_zero v6)), ?_⟩
    rcases hs with hs | ⟨hs, hj⟩
    · exact .inl ⟨hs, ho⟩
    · exact .inr (.inl ⟨hs, ho, hj⟩)
  | timer now =>
    rcases timer_cases w.p now with ht | ⟨hn, ht⟩
    · have : Pmtud.step w (.timer now) = w := by unfold Pmtud.step; dsimp only; rw [ht]
      rw [this]; exact h
    · have hu : w.unresolved = [] := by
        rcases h.shape with ⟨_, hu⟩ | ⟨_, hu, _⟩ | ⟨hs, _⟩
        · exact hu
        · exact hu
        · rw [hn] at hs; cases hs
      have hm0 := h.g.stopped hn
      have ht' : w.p.timer now = (({ w.p with raise := none } : Pm).next now).setMtu w.p.index := by
        rw [ht]; exact (next_setMtu_self (p := { w.p with raise := none }) now (by rw [h.g.hv6]; exact hm0)).symm
      obtain ⟨hs, hm⟩ := next_state (p := { w.p with raise := none }) h.g.hv6 now w.p.index rfl
      rw [← ht'] at hs hm
      refine ⟨hg, ?_, ?_⟩
      · show (w.p.timer now).mtu = 1280 ∨ (w.p.timer now).mtu ∈ w.confirmed
        rw [hm]
        have := h.conf
        rw [hm0] at this
        exact this
      · rcases hs with hs | ⟨hs, hj⟩
        · exact .inl ⟨hs, hu⟩
        · exact .inr (.inl ⟨hs, hu, hj⟩)
  | probe =>
    have hp := probe_total h.g
    unfold Pmtud.step at hg ⊢
    dsimp only at hg ⊢
    by_cases hn : w.p.state = .needed
    · rw [if_pos hn] at hg ⊢
      rcases h.shape with ⟨hs, _⟩ | ⟨_, hu, hj⟩ | ⟨hs, _⟩
      · rw [hn] at hs; cases hs
      · refine ⟨hg, h.conf, .inr (.inr ⟨rfl, hj, w.sent, ?_, ?_⟩)⟩
        · dsimp only; rw [hp]; rfl
        · dsimp only; rw [hu]
      · rw [hn] at hs; cases hs
    · rw [if_neg hn]; exact h
  | acked ids now =>
    dsimp only at ho
    by_cases h0 : ids = []
    · subst h0
      have : Pmtud.step w (.acked [] now) = w := by simp [Pmtud.step, Pm.acked, List.filter_eq_self.mpr]
      rw [this]; exact h
    · rcases h.shape with ⟨_, hu⟩ | ⟨_, hu, _⟩ | ⟨_, _, l, hl, hu⟩
      · rw [hu] at ho; exact absurd (ids_of_nil ho.1) h0
      · rw [hu] at ho; exact absurd (ids_of_nil ho.1) h0
      · rw [hu] at ho
        rcases nodup_of_mem_singleton ho.1 ho.2 with hi | hi
        · exact absurd hi h0
        · subst hi
          obtain ⟨hs, hm⟩ := next_state (p := w.p) h.g.hv6 now w.p.index rfl
          have hun : (Pmtud.step w (.acked [l.length] now)).unresolved = [] := by
            simp [Pmtud.step, hu]
          refine ⟨hg, .inr ?_, ?_⟩
          · show ((w.p.next now).setMtu w.p.index).mtu ∈ w.confirmed ++ [l.length].map w.size
            rw [hm, List.map_cons, size_last hl]
            simp
          · rcases hs with hs | ⟨hs, hj⟩
            · exact .inl ⟨hs, hun⟩
            · exact .inr (.inl ⟨hs, hun, hj⟩)
  | lost ids now =>
    dsimp only at ho
    by_cases h0 : ids = []
    · subst h0
      have : Pmtud.step w (.lost [] now) = w := by simp [Pmtud.step, Pm.lost, List.filter_eq_self.mpr]
      rw [this]; exact h
    · rcases h.shape with ⟨_, hu⟩ | ⟨_, hu, _⟩ | ⟨_, hj, l, hl, hu⟩
      · rw [hu] at ho; exact absurd (ids_of_nil ho.1) h0
      · rw [hu] at ho; exact absurd (ids_of_nil ho.1) h0
      · rw [hu] at ho
        rcases nodup_of_mem_singleton ho.1 ho.2 with hi | hi
        · exact absurd hi h0
        · subst hi
          have hun : (Pmtud.step w (.lost [l.length] now)).unresolved = [] := by
            simp [Pmtud.step, hu]
          obtain ⟨j, hj, hm⟩ := hj
          by_cases hc : 3 ≤ w.p.count
          · have hp : w.p.lost 1 now = w.p.stop (w.p.index - 1) now := by
              unfold Pm.lost; rw [if_neg (by omega), if_pos hc]
            have hm' : (w.p.stop (w.p.index - 1) now).mtu = w.p.mtu := by
              rw [hm, hj]; simp [Pm.stop, h.g.hv6]
            refine ⟨hg, ?_, .inl ⟨?_, hun⟩⟩
            · show (w.p.lost 1 now).mtu = 1280 ∨ (w.p.lost 1 now).mtu ∈ w.confirmed
              rw [hp, hm']; exact h.conf
            · show (w.p.lost 1 now).state = _
              rw [hp]; rfl
          · have hp : w.p.lost 1 now = { w.p with state := .needed } := by
              unfold Pm.lost; rw [if_neg (by omega), if_neg hc]
            refine ⟨hg, ?_, .inr (.inl ⟨?_, hun, ?_⟩)⟩
            · show (w.p.lost 1 now).mtu = 1280 ∨ (w.p.lost 1 now).mtu ∈ w.confirmed
              rw [hp]; exact h.conf
            · show (w.p.lost 1 now).state = _
              rw [hp]
            · show ∃ j, (w.p.lost 1 now).index = j + 1 ∧ (w.p.lost 1 now).mtu = tbl v6 j
              rw [hp]; exact ⟨j, hj, hm⟩

theorem O.run {v6 iface peer} (ops : List Op) : ∀ {w : W}, O v6 iface peer w → Orderly w ops → O v6 iface peer (run w ops) := by
  induction ops with
  | nil => intro w h _; exact h
  | cons op ops ih => intro w h ho; exact ih (h.step op ops ho) ho.2

theorem O.new (v6 : Bool) (iface peer : Option Nat) : O v6 iface peer (W.new v6 iface peer) :=
  ⟨G.new v6 iface peer, .inl (tbl_zero v6), .inl ⟨rfl, rfl⟩⟩

/-- C80: over the smallest size, the MTU is one for which a probe was acknowledged since the
search started.  Partial: in orderly histories only; see `C80_unprobed_after_late_ack` and
`C80_unprobed_after_restart` for others. -/
theorem C80_confirmed_partial (v6 : Bool) (iface peer : Option Nat) (ops : List Op) (ho : Orderly (W.new v6 iface peer) ops)
    (w : W) (hw : run (W.new v6 iface peer) ops = w) : w.p.mtu = 1280 ∨ w.p.mtu ∈ w.confirmed := by
  subst hw; exact (O.run ops (O.new v6 iface peer) ho).conf

/-- What holds on a path for packets of at most `size` bytes, after a start. -/
structure T (v6 : Bool) (iface peer : Option Nat) (size : Nat) (w : W) : Prop where
  o : O v6 iface peer w
  low : w.p.mtu = 1280 ∨ w.p.mtu ≤ size
  ended : w.p.state = .notNeeded → w.p.index = 10 ∨ ¬ Allowed v6 iface peer (tbl v6 (w.p.index + 1)) ∨ size < tbl v6 (w.p.index + 1)

theorem next_ended {p : Pm} {v6 iface peer} (h1 : p.v6 = v6) (h2 : p.iface = iface) (h3 : p.peer = peer) (now i size : Nat) :
    ((p.next now).setMtu i).state = .notNeeded → ((p.next now).setMtu i).index = 10 ∨
      ¬ Allowed v6 iface peer (tbl v6 (((p.next now).setMtu i).index + 1)) ∨ size < tbl v6 (((p.next now).setMtu i).index + 1) := by
  rcases next_cases p now with ⟨h, hh⟩ | ⟨h, _⟩ <;> rw [h] <;> intro hs
  · rcases hh with hh | hh
    · exact .inl hh
    · rw [h1, h2, h3] at hh; exact .inr (.inl hh)
  · cases hs

theorem T.start {v6 iface peer size} {w : W} (h : O v6 iface peer w) (hu : w.unresolved = []) (now : Nat) :
    T v6 iface peer size (step w (.start now)) :=
  ⟨h.step (.start now) [] ⟨hu, trivial⟩,
    .inl ((next_state (p := { w.p with index := 0, raise := none }) h.g.hv6 now 0 rfl).2.trans (tbl_zero v6)),
    next_ended (p := { w.p with index := 0, raise := none }) h.g.hv6 h.g.hiface h.g.hpeer now 0 size⟩

theorem T.step {v6 iface peer size} {w : W} (h : T v6 iface peer size w) (op : Op) (ops : List Op) (ho : Orderly w (op :: ops))
    (ht : Through size w (op :: ops)) : T v6 iface peer size (step w op) := by
  have hoo := h.o.step op ops ho
  have ho' := ho.1
  have ht' := ht.1
  have hg := h.o.g
  cases op with
  | start now => exact T.start h.o ho' now
  | timer now =>
    rcases timer_cases w.p now with he | ⟨hn, he⟩
    · have : Pmtud.step w (.timer now) = w := by unfold Pmtud.step; dsimp only; rw [he]
      rw [this]; exact h
    · have hm0 := hg.stopped hn
      have he' : w.p.timer now = (({ w.p with raise := none } : Pm).next now).setMtu w.p.index := by
        rw [he]; exact (next_setMtu_self (p := { w.p with raise := none }) now (by rw [hg.hv6]; exact hm0)).symm
      refine ⟨hoo, ?_, ?_⟩
      · show (w.p.timer now).mtu = 1280 ∨ (w.p.timer now).mtu ≤ size
        rw [he', (next_state (p := { w.p with raise := none }) hg.hv6 now w.p.index rfl).2]
        have := h.low
        rw [hm0] at this
        exact this
      · show (w.p.timer now).state = .notNeeded → _
        have := next_ended (p := { w.p with raise := none }) hg.hv6 hg.hiface hg.hpeer now w.p.index size
        rw [← he'] at this
        exact this
  | probe =>
    unfold Pmtud.step at hoo ⊢
    dsimp only at hoo ⊢
    by_cases hn : w.p.state = .needed
    · rw [if_pos hn] at hoo ⊢
      exact ⟨hoo, h.low, by intro hs; cases hs⟩
    · rw [if_neg hn]; exact h
  | acked ids now =>
    dsimp only at ho' ht'
    by_cases h0 : ids = []
    · subst h0
      have : Pmtud.step w (.acked [] now) = w := by simp [Pmtud.step, Pm.acked, List.filter_eq_self.mpr]
      rw [this]; exact h
    · rcases h.o.shape with ⟨_, hu⟩ | ⟨_, hu, _⟩ | ⟨_, _, l, hl, hu⟩
      · rw [hu] at ho'; exact absurd (ids_of_nil ho'.1) h0
      · rw [hu] at ho'; exact absurd (ids_of_nil ho'.1) h0
      · rw [hu] at ho'
        rcases nodup_of_mem_singleton ho'.1 ho'.2 with hi | hi
        · exact absurd hi h0
        · subst hi
          have hle := ht' l.length (by simp)
          rw [size_last hl] at hle
          refine ⟨hoo, .inr ?_, next_ended hg.hv6 hg.hiface hg.hpeer now w.p.index size⟩
          show ((w.p.next now).setMtu w.p.index).mtu ≤ size
          rw [(next_state (p := w.p) hg.hv6 now w.p.index rfl).2]
          exact hle
  | lost ids now =>
    dsimp only at ho' ht'
    by_cases h0 : ids = []
    · subst h0
      have : Pmtud.step w (.lost [] now) = w := by simp [Pmtud.step, Pm.lost, List.filter_eq_self.mpr]
      rw [this]; exact h
    · rcases h.o.shape with ⟨_, hu⟩ | ⟨_, hu, _⟩ | ⟨_, hj, l, hl, hu⟩
      · rw [hu] at ho'; exact absurd (ids_of_nil ho'.1) h0
      · rw [hu] at ho'; exact absurd (ids_of_nil ho'.1) h0
      · rw [hu] at ho'
        rcases nodup_of_mem_singleton ho'.1 ho'.2 with hi | hi
        · exact absurd hi h0
        · subst hi
          have hlt := ht' l.length (by simp)
          rw [size_last hl] at hlt
          obtain ⟨j, hj, hm⟩ := hj
          by_cases hc : 3 ≤ w.p.count
          · have hp : w.p.lost 1 now = w.p.stop (w.p.index - 1) now := by
              unfold Pm.lost; rw [if_neg (by omega), if_pos hc]
            have hm' : (w.p.stop (w.p.index - 1) now).mtu = w.p.mtu := by
              rw [hm, hj]; simp [Pm.stop, hg.hv6]
            refine ⟨hoo, ?_, fun _ => .inr (.inr ?_)⟩
            · show (w.p.lost 1 now).mtu = 1280 ∨ (w.p.lost 1 now).mtu ≤ size
              rw [hp, hm']; exact h.low
            · show size < tbl v6 ((w.p.lost 1 now).index + 1)
              rw [hp, show (w.p.stop (w.p.index - 1) now).index + 1 = w.p.index by simp [Pm.stop]; omega]
              exact hlt
          · have hp : w.p.lost 1 now = { w.p with state := .needed } := by
              unfold Pm.lost; rw [if_neg (by omega), if_neg hc]
            refine ⟨hoo, ?_, ?_⟩
            · show (w.p.lost 1 now).mtu = 1280 ∨ (w.p.lost 1 now).mtu ≤ size
              rw [hp]; exact h.low
            · show (w.p.lost 1 now).state = .notNeeded → _
              rw [hp]; intro hs; cases hs

theorem T.run {v6 iface peer size} (ops : List Op) : ∀ {w : W}, T v6 iface peer size w → Orderly w ops → Through size w ops →
    T v6 iface peer size (run w ops) := by
  induction ops with
  | nil => intro w h _ _; exact h
  | cons op ops ih => intro w h ho ht; exact ih (h.step op ops ho ht) ho.2 ht.2

/-- C80: the search finds the largest size of the table that the path can carry, the interface can
send and the peer accepts.  Once started, a probe is to be sent, or one is on its way, or the MTU is
that size.  Partial: in orderly histories only. -/
theorem C80_finds_largest_partial (v6 : Bool) (iface peer : Option Nat) (size now : Nat) (before ops : List Op)
    (ho : Orderly (W.new v6 iface peer) (before ++ .start now :: ops))
    (ht : Through size (run (W.new v6 iface peer) (before ++ [.start now])) ops)
    (w : W) (hw : run (W.new v6 iface peer) (before ++ .start now :: ops) = w) :
    w.p.state = .needed ∨ w.unresolved.length = 1 ∨ Best v6 iface peer size w.p.mtu := by
  have split : ∀ (a b : List Op) (x : W), Orderly x (a ++ b) → Orderly x a ∧ Orderly (run x a) b := by
    intro a
    induction a with
    | nil => intro b x h; exact ⟨trivial, h⟩
    | cons c a ih => intro b x h; exact ⟨⟨h.1, (ih b _ h.2).1⟩, (ih b _ h.2).2⟩
  obtain ⟨hb, hr⟩ := split before (.start now :: ops) _ ho
  have hO := O.run before (O.new v6 iface peer) hb
  have hT : T v6 iface peer size (run (W.new v6 iface peer) (before ++ [.start now])) := by
    unfold Pmtud.run
    rw [List.foldl_append]
    exact T.start hO hr.1 now
  have hT' := T.run ops hT (by unfold Pmtud.run; rw [List.foldl_append]; exact hr.2) ht
  have : run (run (W.new v6 iface peer) (before ++ [.start now])) ops = w := by
    rw [← hw]; unfold Pmtud.run; rw [← List.foldl_append]; simp
  rw [this] at hT'
  clear this hT hw ht ho hb hr hO split
  rcases hT'.o.shape with ⟨hs, _⟩ | ⟨hs, _⟩ | ⟨_, _, l, _, hu⟩
  · refine .inr (.inr ?_)
    have hm := hT'.o.g.stopped hs
    have hi := hT'.o.g.index
    refine ⟨by rw [hm]; exact tbl_mem v6 _ hi, ?_, ?_⟩
    · rcases hT'.low with h1 | h1
      · exact .inl h1
      · rcases hT'.o.g.allowed with h0 | ha
        · left; rw [hm, h0, tbl_zero]
        · right; rw [hm] at h1 ⊢; exact ⟨h1, ha⟩
    · intro s hs' hle ha
      obtain ⟨i, hi', rfl⟩ := mem_tbl hs'
      rw [hm]
      rcases Nat.lt_or_ge w.p.index i with hlt | hge
      · exfalso
        have hle' : tbl v6 (w.p.index + 1) ≤ tbl v6 i := by
          rcases Nat.lt_or_ge (w.p.index + 1) i with h1 | h1
          · exact Nat.le_of_lt (tbl_lt v6 _ _ h1 hi')
          · rw [show i = w.p.index + 1 by omega]; exact Nat.le_refl _
        rcases hT'.ended hs with h1 | h1 | h1
        · omega
        · exact h1 (allowed_le ha hle')
        · omega
      · rcases Nat.lt_or_ge i w.p.index with h1 | h1
        · exact Nat.le_of_lt (tbl_lt v6 _ _ h1 hi)
        · rw [show i = w.p.index by omega]; exact Nat.le_refl _
  · exact .inl hs
  · exact .inr (.inl (by rw [hu]; rfl))

/-- Neither starts the search anew nor comes from the timer. -/
def Op.quiet : Op → Bool
  | .start _ | .timer _ => false
  | _ => true

/-- What holds of the number of probes in a search: none of the sizes to come, and for the present one
as many as counted. -/
structure Cn (v6 : Bool) (w : W) : Prop where
  above : w.p.state ≠ .notNeeded → ∀ j, w.p.index < j → j ≤ 10 → tbl v6 j ∉ w.sent
  here : w.p.state ≠ .notNeeded → (w.sent.count (tbl v6 w.p.index)) = w.p.count
  all : ∀ s, w.sent.count s ≤ 3

theorem tbl_inj {v6 : Bool} {i j : Nat} (hi : i ≤ 10) (hj : j ≤ 10) (h : tbl v6 i = tbl v6 j) : i = j := by
  rcases Nat.lt_trichotomy i j with hl | he | hl
  · have := tbl_lt v6 _ _ hl hj; omega
  · exact he
  · have := tbl_lt v6 _ _ hl hi; omega

theorem Cn.next_set {v6 : Bool} {w : W} (h : ∀ j, w.p.index < j → j ≤ 10 → tbl v6 j ∉ w.sent) (ha : ∀ s, w.sent.count s ≤ 3)
    (hi : w.p.index ≤ 10) (now i : Nat) (u c : List Nat) : Cn v6 ⟨(w.p.next now).setMtu i, w.sent, u, c⟩ := by
  rcases next_cases w.p now with ⟨hn, _⟩ | ⟨hn, h10, _⟩ <;> rw [hn]
  · exact ⟨fun hs => absurd rfl hs, fun hs => absurd rfl hs, ha⟩
  · refine ⟨fun _ j hj hj' => h j (by simp only [Pm.setMtu] at hj; omega) hj', fun _ => ?_, ha⟩
    exact List.count_eq_zero.mpr (h _ (by simp only [Pm.setMtu]; omega) (by simp only [Pm.setMtu]; omega))

theorem searching {v6 iface peer} {w : W} (ho : O v6 iface peer w) {ids : List Nat} (hi : ∀ i ∈ ids, i ∈ w.unresolved)
    (h0 : ids.length ≠ 0) : w.p.state ≠ .notNeeded := by
  rcases ho.shape with ⟨_, hu⟩ | ⟨hs, _⟩ | ⟨hs, _⟩
  · rw [hu] at hi; rw [ids_of_nil hi] at h0; exact absurd rfl h0
  · rw [hs]; simp
  · rw [hs]; simp

theorem Cn.step {v6 iface peer} {w : W} (ho : O v6 iface peer w) (h : Cn v6 w) (op : Op) (hq : op.quiet = true) (ops : List Op)
    (hor : Orderly w (op :: ops)) : Cn v6 (step w op) := by
  have hor := hor.1
  cases op with
  | start now => cases hq
  | timer now => cases hq
  | probe =>
    unfold Pmtud.step
    dsimp only
    by_cases hn : w.p.state = .needed
    · rw [if_pos hn, probe_total ho.g]
      have hh := h.here (by rw [hn]; simp)
      have h2 := ho.g.needed hn
      refine ⟨?_, ?_, ?_⟩
      · intro _ j hj hj' hm
        dsimp only [Pm.sendProbe] at hj hm
        rcases List.mem_append.mp hm with hm | hm
        · exact h.above (by rw [hn]; simp) j hj hj' hm
        · have := tbl_inj hj' ho.g.index (List.mem_singleton.mp hm); omega
      · intro _
        dsimp only [Pm.sendProbe]
        rw [List.count_append, hh]; simp
      · intro s
        dsimp only
        rw [List.count_append]
        by_cases hs : s = tbl v6 w.p.index
        · subst hs; rw [hh]; simp; omega
        · have := h.all s
          rw [List.count_singleton, if_neg (by simpa using fun e => hs e.symm)]; omega
    · rw [if_neg hn]; exact h
  | acked ids now =>
    dsimp only at hor
    unfold Pmtud.step Pm.acked
    dsimp only
    split
    · exact ⟨h.above, h.here, h.all⟩
    · rename_i h0
      exact Cn.next_set (h.above (searching ho hor.1 h0)) h.all ho.g.index now _ _ _
  | lost ids now =>
    dsimp only at hor
    unfold Pmtud.step Pm.lost
    dsimp only
    split
    · exact ⟨h.above, h.here, h.all⟩
    · rename_i h0
      split
      · exact ⟨fun hs => absurd rfl hs, fun hs => absurd rfl hs, h.all⟩
      · have hs := searching ho hor.1 h0
        exact ⟨fun _ => h.above hs, fun _ => h.here hs, h.all⟩

theorem Cn.run {v6 iface peer} (ops : List Op) : ∀ {w : W}, O v6 iface peer w → Cn v6 w → (∀ op ∈ ops, op.quiet = true) →
    Orderly w ops → Cn v6 (run w ops) := by
  induction ops with
  | nil => intro w _ h _ _; exact h
  | cons op ops ih =>
    intro w ho h hq hor
    exact ih (ho.step op ops hor) (h.step ho op (hq op List.mem_cons_self) ops hor) (fun o hm => hq o (List.mem_cons_of_mem _ hm)) hor.2

/-- C80: a search ends: there are at most three probes of each size, so at most 33.  Partial: in
orderly histories only. -/
theorem C80_three_probes_partial (v6 : Bool) (iface peer : Option Nat) (now : Nat) (ops : List Op)
    (hq : ∀ op ∈ ops, op.quiet = true) (ho : Orderly (W.new v6 iface peer) (.start now :: ops))
    (w : W) (hw : run (W.new v6 iface peer) (.start now :: ops) = w) :
    (∀ s, w.sent.count s ≤ 3) ∧ w.sent.length ≤ 33 := by
  have hO : O v6 iface peer (step (W.new v6 iface peer) (.start now)) := (O.new v6 iface peer).step _ ops ho
  have hC : Cn v6 (step (W.new v6 iface peer) (.start now)) :=
    Cn.next_set (w := ⟨{ Pm.new v6 iface peer with index := 0, raise := none }, [], [], []⟩) (by simp) (by simp) (by simp) now 0 _ _
  have h := Cn.run ops hO hC hq ho.2
  have hs := (C80_bounds v6 iface peer (.start now :: ops) w hw).2.2.2.1
  rw [show run (step (W.new v6 iface peer) (.start now)) ops = w from hw] at h
  refine ⟨h.all, ?_⟩
  have key : ∀ (t l : List Nat), (∀ s ∈ l, s ∈ t) → (∀ s, l.count s ≤ 3) → l.length ≤ 3 * t.length := by
    intro t
    induction t with
    | nil =>
      intro l hl _
      cases l with
      | nil => simp
      | cons a l => exact absurd (hl a List.mem_cons_self) (by simp)
    | cons a t ih =>
      intro l hl hc
      have h1 := ih (l.filter (· != a)) (by
        intro s hs
        rw [List.mem_filter] at hs
        rcases List.mem_cons.mp (hl s hs.1) with he | hm
        · simp [he] at hs
        · exact hm) (fun s => Nat.le_trans (List.filter_sublist.count_le s) (hc s))
      have h2 := hc a
      have h3 : l.length = l.count a + (l.filter (· != a)).length := by
        rw [List.count_eq_countP, List.length_eq_countP_add_countP (· == a), List.countP_eq_length_filter (p := fun x => decide ¬ _)]
        congr 2
        apply List.filter_congr
        intro x _
        by_cases hx : x = a <;> simp [hx]
      rw [List.length_cons]; omega
  have := key (table v6) w.sent (fun s hm => (hs s hm).1) h.all
  rw [show (table v6).length = 11 by cases v6 <;> rfl] at this
  omega

/-! ## What goes wrong -/

/-- The acknowledgment of a probe that was declared lost counts for the present size, and so do
those of its repetitions: after the first, the next size is tried; the second, also for a probe of the
smaller size, then confirms this next size (1420), of which no probe was ever sent. -/
theorem C80_unprobed_after_late_ack (v6 : Bool) :
    let w := run (W.new v6 none none) [.start 0, .probe, .lost [0] 1, .probe, .acked [0] 2, .acked [1] 3]
    w.sent = [1380, 1380] ∧ w.p.mtu = 1420 := by cases v6 <;> decide

/-- The same without loss: a PATH_CHALLENGE frame starts the search anew while a probe is on its
way (connection/mod.rs:3485-3500). -/
theorem C80_unprobed_after_restart (v6 : Bool) :
    let w := run (W.new v6 none none) [.start 0, .probe, .start 1, .probe, .acked [0] 2, .acked [1] 3]
    w.sent = [1380, 1380] ∧ w.p.mtu = 1420 := by cases v6 <;> decide

/-- A peer may accept only datagrams of 1200 bytes (RFC 9000 §18.2), but this limits only the probes,
not the size that is used without any: 1252 or 1232 bytes, always. -/
theorem C80_base_exceeds_peer_limit (iface : Option Nat) (n : Nat) (v6 : Bool) (hn : n < 1280 - headerSize v6) (ops : List Op) :
    n < (run (W.new v6 iface (some n)) ops).p.plpmtu := by
  have h := G.run ops (w := W.new v6 iface (some n)) (G.new v6 iface (some n))
  have h1 := (C80_bounds v6 iface (some n) ops _ rfl).1
  obtain ⟨i, hi, he⟩ := mem_tbl h1
  have := tbl_ge (v6 := v6) hi
  unfold Pm.plpmtu
  rw [he, h.hv6]
  omega

/-! ## Examples -/

/-- A path for 1430 bytes: two sizes are confirmed, the third is lost three times. -/
def sample : List Op :=
  [.start 0, .probe, .acked [0] 1, .probe, .acked [1] 2, .probe, .lost [2] 3, .probe, .lost [3] 4, .probe, .lost [4] 5]

example : Orderly (W.new false none (some 65527)) sample ∧ Through 1430 (W.new false none (some 65527)) sample ∧
    (run (W.new false none (some 65527)) sample).p.mtu = 1420 ∧
    (run (W.new false none (some 65527)) sample).sent = [1380, 1420, 1472, 1472, 1472] ∧
    (run (W.new false none (some 65527)) sample).p.state = .notNeeded ∧ Best false none (some 65527) 1430 1420 := by
  refine ⟨?_, ?_, by decide, by decide, by decide, ?_⟩
  · simp only [sample, Orderly]; decide
  · simp only [sample, Through]; decide
  · refine ⟨by decide, .inr ⟨by decide, by simp [Allowed, headerSize]⟩, ?_⟩
    intro s hs hl _
    have : ∀ s ∈ table false, s ≤ 1430 → s ≤ 1420 := by decide
    exact this s hs hl

/-- After ten minutes the search goes on. -/
example : (run (W.new false none (some 65527)) (sample ++ [.timer 604])).p.state = .notNeeded ∧
    (run (W.new false none (some 65527)) (sample ++ [.timer 605])).p.state = .needed ∧
    (run (W.new false none (some 65527)) (sample ++ [.timer 605])).p.probeSize = 1444 := by decide

/-- The interface limits the search. -/
example : (run (W.new true (some 1400) none) [.start 0, .probe, .acked [0] 1]).p.mtu = 1380 ∧
    (run (W.new true (some 1400) none) [.start 0, .probe, .acked [0] 1]).p.state = .notNeeded := by decide

end Neqo.Pmtud
