import Verif.Assemble.Model
import Mathlib.Tactic.ByContra

/-! # Invariants of datagram assembly (helper lemmas for C87 and C88) -/

namespace Neqo.Asm

theorem header_some {c : Conn} {s : Space} {k : Key} {len limit h : Nat}
    (e : header c s k len limit = some h) :
    len < limit ∧ len < pnStart k h ∧ pnStart k h + 4 ≤ limit ∧ pnStart k h + min 4 k.pnLen = h := by
  unfold header at e
  unfold pnStart
  generalize min 4 k.pnLen = n at *
  generalize varintLen c.token + c.token = t at *
  split at e
  · split at e
    · dsimp only at e
      split at e
      · cases e
      · split at e
        all_goals
          split at e
          · cases e
          · cases e
            refine ⟨by omega, by omega, by omega, by omega⟩
    · cases e
  · split at e
    · dsimp only at e
      split at e
      · cases e
      · cases e
        refine ⟨by omega, by omega, by omega, by omega⟩
    · cases e

/-- The largest datagram allowed. -/
def bound (c : Conn) : Nat :=
  match c.probe with
  | some p => p
  | none => c.limit

theorem spaceLimit_le (c : Conn) (s : Space) : spaceLimit c s ≤ bound c := by
  unfold spaceLimit bound
  cases c.probe <;> simp

theorem spaceLimit_app (c : Conn) : spaceLimit c .app = bound c := by
  unfold spaceLimit bound
  cases c.probe <;> simp

/-- Everything known about a turn of the loop that adds a packet. -/
structure Added (c : Conn) (w : Writers) (s : Space) (k : Key) (st st' : St) (h : Nat)
    (r : Wrote) : Prop where
  key : c.keys s = some k
  head : header c s k st.len (spaceLimit c s - k.expansion) = some h
  room : h + 2 ≤ spaceLimit c s - k.expansion
  wrote : r = contents c w s k.long (decide (st.len ≠ 0)) (st.pad || c.probe.isSome)
    (spaceLimit c s - k.expansion) h
  some_ : r.len ≠ h
  fits : r.len ≤ spaceLimit c s - k.expansion
  len : st'.len = buildLen k h r.len
  pkts : st'.pkts = st.pkts ++ [⟨s, k.long, buildLen k h r.len - st.len, r.ack, r.elicits, r.probe⟩]
  disc : st'.discarded = st.discarded ++ discards c s
  stop : st'.stop = (c.client && decide (s = .initial) && w.more)
  trk : st'.tracked = (track c s k.long r (buildLen k h r.len - st.len)
    { st with pad := st.pad || c.probe.isSome }).tracked
  ini : st'.initial = (track c s k.long r (buildLen k h r.len - st.len)
    { st with pad := st.pad || c.probe.isSome }).initial
  pad : st'.pad = (track c s k.long r (buildLen k h r.len - st.len)
    { st with pad := st.pad || c.probe.isSome }).pad

/-- Everything known about a turn that adds nothing. -/
structure Same (c : Conn) (st st' : St) : Prop where
  len : st'.len = st.len
  pkts : st'.pkts = st.pkts
  ini : st'.initial = st.initial
  trk : st'.tracked = st.tracked
  disc : st'.discarded = st.discarded
  pad : st'.pad = st.pad ∨ (c.probe.isSome = true ∧ st'.pad = true)

theorem space_cases {c : Conn} {w : Writers} {s : Space} {st st' : St}
    (e : space c w s st = .ok st') :
    Same c st st' ∨ ∃ k h r, Added c w s k st st' h r := by
  unfold space at e
  cases hk : c.keys s with
  | none =>
    rw [hk] at e
    cases e
    exact .inl ⟨rfl, rfl, rfl, rfl, rfl, .inl rfl⟩
  | some k =>
    rw [hk] at e
    dsimp only at e
    have hp : ∀ b : Bool, (b || c.probe.isSome) = b ∨ (c.probe.isSome = true ∧ (b || c.probe.isSome) = true) := by
      intro b; cases b <;> cases c.probe.isSome <;> simp
    split at e
    · cases e
      exact .inl ⟨rfl, rfl, rfl, rfl, rfl, hp _⟩
    · rename_i h hh
      split at e
      · cases e
        exact .inl ⟨rfl, rfl, rfl, rfl, rfl, hp _⟩
      · split at e
        · cases e
          exact .inl ⟨rfl, rfl, rfl, rfl, rfl, hp _⟩
        · split at e
          · cases e
          · rename_i h1 h2 h3
            cases e
            refine .inr ⟨k, h, _, ⟨hk, hh, by omega, rfl, h2, by omega, rfl, ?_, ?_, rfl, rfl, rfl, rfl⟩⟩
            · dsimp only
              congr 1
              unfold track
              repeat' split
              all_goals rfl
            · dsimp only
              congr 1
              unfold track
              repeat' split
              all_goals rfl

theorem Added.bounds {c : Conn} {w : Writers} {s : Space} {k : Key} {st st' : St} {h : Nat}
    {r : Wrote} (a : Added c w s k st st' h r) :
    st.len < st'.len ∧ st'.len ≤ spaceLimit c s ∧ k.expansion ≤ spaceLimit c s := by
  obtain ⟨h1, h2, h3, h4⟩ := header_some a.head
  have h5 := a.fits
  have h6 := a.room
  rw [a.len]
  unfold buildLen
  omega

/-- An invariant kept by every turn holds at the end. -/
theorem spaces_induct {c : Conn} {w : Writers} {P : List Space → St → Prop}
    (step : ∀ s rest st st', P (s :: rest) st → st.stop = false → space c w s st = .ok st' → P rest st')
    (quit : ∀ rest st, P rest st → st.stop = true → P [] st) :
    ∀ l st st', P l st → spaces c w l st = .ok st' → P [] st' := by
  intro l
  induction l with
  | nil =>
    intro st st' h e
    unfold spaces at e
    cases e
    exact h
  | cons s rest ih =>
    intro st st' h e
    unfold spaces at e
    split at e
    · rename_i hs
      cases e
      exact quit _ _ h hs
    · rename_i hs
      obtain ⟨st1, e1, e2⟩ := Except.bind_eq_ok.mp e
      exact ih st1 st' (step s rest st st1 h (by simpa using hs) e1) e2

/-! ## Sizes -/

structure SizeInv (c : Conn) (st : St) : Prop where
  sum : (st.pkts.map Pkt.size).sum = st.len
  le : st.len ≤ bound c
  trk : (st.tracked.map Prod.snd).sum + st.initial.getD 0 = st.len
  ini : st.initial.isSome = true → ∃ p ∈ st.pkts, p.space = .initial
  pos : ∀ p ∈ st.pkts, 0 < p.size

theorem sizeInv_init (c : Conn) : SizeInv c St.init :=
  ⟨rfl, Nat.zero_le _, rfl, (by intro h; cases h), (by intro p hp; cases hp)⟩

/-- Which space the loop is at: all packets so far are from earlier spaces. -/
def Before (l : List Space) (st : St) : Prop :=
  ∃ pre, pre ++ l = [Space.initial, .handshake, .app] ∧ (st.pkts.map Pkt.space).Sublist pre

theorem Before.step {c : Conn} {w : Writers} {s : Space} {rest : List Space} {st st' : St}
    (b : Before (s :: rest) st) (e : space c w s st = .ok st') : Before rest st' := by
  obtain ⟨pre, h1, h2⟩ := b
  refine ⟨pre ++ [s], by simpa using h1, ?_⟩
  rcases space_cases e with h | ⟨k, h, r, a⟩
  · rw [h.pkts]
    exact h2.trans (List.sublist_append_left _ _)
  · rw [a.pkts, List.map_append]
    exact h2.append (List.Sublist.refl _)

theorem Before.not_mem {s : Space} {rest : List Space} {st : St} (b : Before (s :: rest) st) :
    ∀ p ∈ st.pkts, p.space ≠ s := by
  obtain ⟨pre, h1, h2⟩ := b
  intro p hp he
  have hm : s ∈ pre := h2.mem (he ▸ List.mem_map_of_mem hp)
  have hn : (pre ++ s :: rest).Nodup := by rw [h1]; decide
  rw [List.nodup_append] at hn
  exact hn.2.2 s hm s (List.mem_cons_self) rfl

theorem Before.initial {rest : List Space} {st : St} (b : Before (.initial :: rest) st) :
    st.pkts = [] := by
  obtain ⟨pre, h1, h2⟩ := b
  have hp : pre = [] := by
    cases pre with
    | nil => rfl
    | cons a t =>
      exfalso
      have hn : ((a :: t) ++ Space.initial :: rest).Nodup := by rw [h1]; decide
      have ha : a = .initial := by
        have := congrArg List.head? h1
        simpa using this
      subst ha
      simp at hn
  subst hp
  have := h2.length_le
  simpa using this

theorem SizeInv.step {c : Conn} {w : Writers} {s : Space} {rest : List Space} {st st' : St}
    (i : SizeInv c st) (b : Before (s :: rest) st) (e : space c w s st = .ok st') : SizeInv c st' := by
  rcases space_cases e with h | ⟨k, h, r, a⟩
  · exact ⟨by rw [h.pkts, h.len]; exact i.sum, by rw [h.len]; exact i.le,
      by rw [h.trk, h.ini, h.len]; exact i.trk, by rw [h.ini, h.pkts]; exact i.ini,
      by rw [h.pkts]; exact i.pos⟩
  · obtain ⟨b1, b2, b3⟩ := a.bounds
    have hl := a.len
    refine ⟨?_, Nat.le_trans b2 (spaceLimit_le c s), ?_, ?_, ?_⟩
    · rw [a.pkts, List.map_append, List.sum_append, i.sum, ← hl]
      simp
      omega
    · rw [a.trk, a.ini, ← hl]
      have := i.trk
      unfold track
      split
      · simp only [List.map_append, List.sum_append, List.map_cons, List.map_nil, List.sum_cons,
          List.sum_nil]
        omega
      · split
        · rename_i hs
          have hn : st.initial = none := by
            cases hi : st.initial with
            | none => rfl
            | some n =>
              obtain ⟨p, hp, he⟩ := i.ini (by rw [hi]; rfl)
              exact absurd (he.trans hs.1.symm) (b.not_mem p hp)
          simp only [hn, Option.getD_none, Option.getD_some] at *
          omega
        · simp only [List.map_append, List.sum_append, List.map_cons, List.map_nil, List.sum_cons,
            List.sum_nil]
          omega
    · rw [a.ini, a.pkts]
      unfold track
      split
      · intro hh
        obtain ⟨p, hp, he⟩ := i.ini hh
        exact ⟨p, List.mem_append_left _ hp, he⟩
      · split
        · rename_i hs
          intro _
          exact ⟨_, List.mem_append_right _ (List.mem_singleton.mpr rfl), hs.1⟩
        · intro hh
          obtain ⟨p, hp, he⟩ := i.ini hh
          exact ⟨p, List.mem_append_left _ hp, he⟩
    · rw [a.pkts]
      intro p hp
      rcases List.mem_append.mp hp with h1 | h1
      · exact i.pos p h1
      · rw [List.mem_singleton.mp h1]
        show 0 < buildLen k h r.len - st.len
        rw [← hl]
        omega

theorem Before.quit {rest : List Space} {st : St} (b : Before rest st) : Before [] st := by
  obtain ⟨pre, h1, h2⟩ := b
  refine ⟨pre ++ rest, by simpa using h1, h2.trans (List.sublist_append_left _ _)⟩

theorem before_init : Before [.initial, .handshake, .app] St.init :=
  ⟨[], rfl, List.Sublist.refl _⟩

theorem output_ok {c : Conn} {w : Writers} {d : Dgram} (e : output c w = .ok (some d)) :
    ∃ st, spaces c w [.initial, .handshake, .app] St.init = .ok st ∧ finish c st = some d := by
  unfold output at e
  obtain ⟨st, e1, e2⟩ := Except.bind_eq_ok.mp e
  exact ⟨st, e1, Except.ok.inj e2⟩

theorem final_size {c : Conn} {w : Writers} {st : St}
    (e : spaces c w [.initial, .handshake, .app] St.init = .ok st) :
    SizeInv c st ∧ Before [] st := by
  refine spaces_induct (P := fun l st => SizeInv c st ∧ Before l st) ?_ ?_ _ _ _
    ⟨sizeInv_init c, before_init⟩ e
  · intro s rest st st' ⟨h1, h2⟩ _ he
    exact ⟨h1.step h2 he, h2.step he⟩
  · intro rest st ⟨h1, h2⟩ _
    exact ⟨h1, h2.quit⟩

theorem padding_length (b : Bool) (n : Nat) : (padding b n).length = n := by
  unfold padding
  split
  · split
    · simp; omega
    · simp
  · simp

theorem finish_cases {c : Conn} {st : St} {d : Dgram} (e : finish c st = some d) :
    st.len ≠ 0 ∧ d.pkts = st.pkts ∧ d.discarded = st.discarded ∧
    ((st.initial = none ∧ d.padding = [] ∧ d.tracked = st.tracked) ∨
     (∃ size, st.initial = some size ∧
      d.padding = padding c.scone (if st.pad then c.limit - st.len else 0) ∧
      d.tracked = st.tracked ++ [(.initial, size + (if st.pad then c.limit - st.len else 0))])) := by
  unfold finish at e
  split at e
  · cases e
  · rename_i h0
    split at e
    · rename_i hi
      cases e
      exact ⟨h0, rfl, rfl, .inl ⟨hi, rfl, rfl⟩⟩
    · rename_i size hi
      cases e
      exact ⟨h0, rfl, rfl, .inr ⟨size, hi, rfl, rfl⟩⟩

/-! ## Padding -/

/-- An Initial packet that calls for padding. -/
def wantsPadding (c : Conn) (p : Pkt) : Prop :=
  p.space = .initial ∧ (c.client = true ∨ p.ack = true)

/-- What is known about the keys. -/
structure KeysOk (c : Conn) : Prop where
  initial : ∀ k, c.keys .initial = some k → k.long = true
  handshake : ∀ k, c.keys .handshake = some k → k.long = true
  app : ∀ k, c.keys .app = some k → c.connected = true → k.long = false

theorem KeysOk.long {c : Conn} (o : KeysOk c) {s : Space} (hs : s ≠ .app) {k : Key}
    (h : c.keys s = some k) : k.long = true := by
  cases s with
  | initial => exact o.initial k h
  | handshake => exact o.handshake k h
  | app => exact absurd rfl hs

theorem writeFrames_padded {c : Conn} {w : Writers} {s : Space} {long co pd : Bool}
    {limit len : Nat} (h : (writeFrames c w s long co pd limit len).padded = true) :
    long = false ∧ limit ≤ (writeFrames c w s long co pd limit len).len := by
  unfold writeFrames at h ⊢
  dsimp only at h ⊢
  split at h
  · cases h
  · rename_i ho
    rw [if_neg ho]
    dsimp only at h ⊢
    rw [if_pos h]
    refine ⟨?_, Nat.le_max_right _ _⟩
    simp only [Bool.and_eq_true, Bool.not_eq_true'] at h
    exact h.2

theorem contents_padded {c : Conn} {w : Writers} {s : Space} {long co pd : Bool}
    {limit len : Nat} (h : (contents c w s long co pd limit len).padded = true) :
    long = false ∧ limit ≤ (contents c w s long co pd limit len).len := by
  unfold contents at h ⊢
  split at h
  · cases h
  · rename_i hc
    rw [if_neg hc]
    exact writeFrames_padded h

structure PadInv (c : Conn) (st : St) : Prop where
  ini : ∀ p ∈ st.pkts, wantsPadding c p → st.initial.isSome = true ∧ (st.pad = true ∨ c.limit ≤ st.len)

theorem PadInv.step {c : Conn} {w : Writers} {s : Space} {rest : List Space} {st st' : St}
    (ko : KeysOk c) (hb : c.limit ≤ bound c)
    (i : PadInv c st) (b : Before (s :: rest) st) (e : space c w s st = .ok st') : PadInv c st' := by
  rcases space_cases e with h | ⟨k, h, r, a⟩
  · refine ⟨?_⟩
    rw [h.pkts, h.ini, h.len]
    intro p hp hw
    obtain ⟨h1, h2⟩ := i.ini p hp hw
    refine ⟨h1, ?_⟩
    rcases h.pad with h3 | ⟨_, h3⟩
    · rw [h3]; exact h2
    · exact .inl h3
  · obtain ⟨b1, b2, b3⟩ := a.bounds
    refine ⟨?_⟩
    intro p hp hw
    rw [a.pkts] at hp
    rw [a.ini, a.pad]
    rcases List.mem_append.mp hp with h1 | h1
    · obtain ⟨h2, h3⟩ := i.ini p h1 hw
      have hs : s ≠ .initial := by
        intro hs
        exact b.not_mem p h1 (hw.1.trans hs.symm)
      unfold track
      by_cases hp : r.padded = true
      · rw [if_pos hp]
        refine ⟨h2, .inr ?_⟩
        have hw := a.wrote
        obtain ⟨hl, hle⟩ := contents_padded (hw ▸ hp)
        have hle' : spaceLimit c s - k.expansion ≤ r.len := by rw [hw]; exact hle
        have hsp : s = .app := by
          by_contra hne
          have := ko.long hne a.key
          rw [hl] at this
          cases this
        rw [a.len]
        unfold buildLen
        rw [hsp, spaceLimit_app] at hle' b3
        omega
      · rw [if_neg hp, if_neg (fun hh => hs hh.1)]
        refine ⟨h2, ?_⟩
        rcases h3 with h3 | h3
        · left
          dsimp only
          rw [if_neg, h3]
          · rfl
          · intro hh
            rw [hh.2.2] at h2
            cases h2
        · right
          omega
    · rw [List.mem_singleton.mp h1] at hw
      obtain ⟨hs, hc⟩ := hw
      have hs : s = .initial := hs
      unfold track
      have hnp : ¬ r.padded = true := by
        intro hp
        obtain ⟨hl, _⟩ := contents_padded (a.wrote ▸ hp)
        have := ko.initial k (hs ▸ a.key)
        rw [hl] at this
        cases this
      rw [if_neg hnp, if_pos ⟨hs, hc⟩]
      exact ⟨rfl, .inl rfl⟩

theorem final_pad {c : Conn} {w : Writers} {st : St} (ko : KeysOk c) (hb : c.limit ≤ bound c)
    (e : spaces c w [.initial, .handshake, .app] St.init = .ok st) : PadInv c st := by
  refine (spaces_induct (P := fun l st => PadInv c st ∧ Before l st) ?_ ?_ _ _ _
    ⟨⟨by intro p hp; cases hp⟩, before_init⟩ e).1
  · intro s rest st st' ⟨h1, h2⟩ _ he
    exact ⟨h1.step ko hb h2 he, h2.step he⟩
  · intro rest st ⟨h1, h2⟩ _
    exact ⟨h1, h2.quit⟩

end Neqo.Asm
