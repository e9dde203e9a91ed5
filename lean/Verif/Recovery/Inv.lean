import Verif.Recovery.CcInv

/-! # The invariant of loss recovery, and what a call does to the tracked packets -/
namespace Neqo.Rec

@[simp] theorem setSpace_pkts (s : Sys) (id : SpaceId) (x : Option Space) (i : SpaceId) :
    (s.setSpace id x).pkts i = if i = id then (match x with | none => [] | some sp => sp.pkts) else s.pkts i := by
  unfold Sys.pkts Sys.setSpace
  simp only
  split <;> split <;> simp_all

theorem setSpace_setSpace (s : Sys) (id : SpaceId) (x y : Option Space) : (s.setSpace id x).setSpace id y = s.setSpace id y := by
  unfold Sys.setSpace
  simp only [Sys.mk.injEq, and_true]
  funext i
  split <;> rfl

theorem pkts_some {s : Sys} {id : SpaceId} {sp : Space} (h : s.spaces id = some sp) : s.pkts id = sp.pkts := by
  unfold Sys.pkts; rw [h]

theorem pkts_none {s : Sys} {id : SpaceId} (h : s.spaces id = none) : s.pkts id = [] := by
  unfold Sys.pkts; rw [h]

/-- The sum of a measure over all tracked packets. -/
def tot (f : Pkt → Nat) (s : Sys) : Nat := total f (s.pkts .initial) + total f (s.pkts .handshake) + total f (s.pkts .app)

theorem tot_setSpace (f : Pkt → Nat) (s : Sys) (id : SpaceId) (x : Option Space) :
    tot f (s.setSpace id x) + total f (s.pkts id) = tot f s + total f (match x with | none => [] | some sp => sp.pkts) := by
  unfold tot
  simp only [setSpace_pkts]
  cases id <;> simp <;> omega

theorem tot_congr {f : Pkt → Nat} {s s' : Sys} (h : ∀ id, total f (s'.pkts id) = total f (s.pkts id)) : tot f s' = tot f s := by
  unfold tot; rw [h, h, h]

theorem Sorted.unique {ps : List Pkt} (h : Sorted ps) {a b : Pkt} (ha : a ∈ ps) (hb : b ∈ ps) (e : a.pn = b.pn) : a = b := by
  induction ps with
  | nil => cases ha
  | cons p ps ih =>
    obtain ⟨h1, h2⟩ := List.pairwise_cons.mp h
    rcases List.mem_cons.mp ha with rfl | ha <;> rcases List.mem_cons.mp hb with rfl | hb
    · rfl
    · have := h1 b hb; omega
    · have := h1 a (by assumption); omega
    · exact ih h2 ha hb

theorem Sorted.sent_le {ps : List Pkt} (h : Sorted ps) (ht : Timed ps) {a b : Pkt} (ha : a ∈ ps) (hb : b ∈ ps) (e : a.pn < b.pn) : a.sent ≤ b.sent := by
  induction ps with
  | nil => cases ha
  | cons p ps ih =>
    obtain ⟨h1, h2⟩ := List.pairwise_cons.mp h
    obtain ⟨t1, t2⟩ := List.pairwise_cons.mp ht
    rcases List.mem_cons.mp ha with rfl | ha <;> rcases List.mem_cons.mp hb with rfl | hb
    · omega
    · exact t1 b hb
    · have := h1 a (by assumption); omega
    · exact ih h2 t2 ha hb

/-- How a tracked packet may change: only its flags, and those for being lost or probed are never taken
back. -/
structure Evol (p q : Pkt) : Prop where
  pt : q.pt = p.pt
  pn : q.pn = p.pn
  sent : q.sent = p.sent
  len : q.len = p.len
  eliciting : q.eliciting = p.eliciting
  epoch : q.epoch = p.epoch
  tokens : q.tokens = p.tokens
  lost : p.lost ≠ none → q.lost = p.lost
  pto : p.pto = true → q.pto = true

theorem Evol.refl (p : Pkt) : Evol p p := ⟨rfl, rfl, rfl, rfl, rfl, rfl, rfl, fun _ => rfl, fun h => h⟩

theorem Evol.trans {p q r : Pkt} (a : Evol p q) (b : Evol q r) : Evol p r :=
  ⟨b.pt.trans a.pt, b.pn.trans a.pn, b.sent.trans a.sent, b.len.trans a.len, b.eliciting.trans a.eliciting, b.epoch.trans a.epoch, b.tokens.trans a.tokens,
   fun h => (b.lost (by rw [a.lost h]; exact h)).trans (a.lost h), fun h => b.pto (a.pto h)⟩

theorem Evol.mark (la now ld : Nat) (p : Pkt) : Evol p (markLost la now ld p) := by
  unfold markLost
  split
  · rename_i h
    exact ⟨rfl, rfl, rfl, rfl, rfl, rfl, rfl, fun hc => absurd h.2 hc, fun h => h⟩
  · exact .refl p

theorem Evol.marked (p : Pkt) : Evol p p.marked := ⟨rfl, rfl, rfl, rfl, rfl, rfl, rfl, fun _ => rfl, fun _ => rfl⟩

/-- Every packet tracked afterwards was tracked before, or is new. -/
def EvolAll (next : SpaceId → Nat) (f g : SpaceId → List Pkt) : Prop :=
  ∀ id, ∀ q ∈ g id, (∃ p ∈ f id, Evol p q) ∨ next id ≤ q.pn

theorem EvolAll.refl (next f) : EvolAll next f f := fun _ q hq => .inl ⟨q, hq, .refl q⟩

theorem EvolAll.trans {next f g k} (a : EvolAll next f g) (b : EvolAll next g k) : EvolAll next f k := by
  intro id r hr
  rcases b id r hr with ⟨q, hq, e⟩ | h
  · rcases a id q hq with ⟨p, hp, e'⟩ | h
    · exact .inl ⟨p, hp, e'.trans e⟩
    · exact .inr (by rw [e.pn]; exact h)
  · exact .inr h

/-- The packets remembered as lost by a congestion controller are lost, if still tracked. -/
def MaybeOK (next : SpaceId → Nat) (f : SpaceId → List Pkt) (ml : List (PType × Nat × Nat)) : Prop :=
  ∀ e ∈ ml, e.2.1 < next e.1.space ∧ ∀ p ∈ f e.1.space, p.pn = e.2.1 → p.lost ≠ none

theorem MaybeOK.evolve {next next' f g ml} (h : MaybeOK next f ml) (e : EvolAll next f g) (hn : ∀ i, next i ≤ next' i) : MaybeOK next' g ml := by
  intro x hx
  obtain ⟨h1, h2⟩ := h x hx
  refine ⟨Nat.lt_of_lt_of_le h1 (hn _), fun q hq hpn => ?_⟩
  rcases e _ q hq with ⟨p, hp, ev⟩ | hge
  · have hl := h2 p hp (by rw [← ev.pn]; exact hpn)
    rw [ev.lost hl]; exact hl
  · omega

theorem MaybeOK.subset {next f ml ml'} (h : MaybeOK next f ml) (hs : ∀ e ∈ ml', e ∈ ml) : MaybeOK next f ml' := fun e he => h e (hs e he)

/-- What holds of a round-trip estimator.  `u` is when the largest acknowledged application packet was
sent. -/
structure RttOK (conf u : Option Nat) (r : Rtt) : Prop where
  first : r.first = none → r.best = .guess
  best : r.best = .confirmed → ∃ t v, conf = some t ∧ u = some v ∧ t < v

/-- When the largest acknowledged application packet was sent. -/
def Sys.appSent (s : Sys) : Option Nat := (s.spaces .app).bind (·.largestAckedSent)

/-- The packets tracked afterwards were sent on the same paths as ones tracked before. -/
def Keep (f g : SpaceId → List Pkt) : Prop := ∀ id, ∀ q ∈ g id, ∃ p ∈ f id, q.primary = p.primary ∧ q.epoch = p.epoch

theorem Keep.refl (f) : Keep f f := fun _ q hq => ⟨q, hq, rfl, rfl⟩

/-- What holds between calls.  `extra` counts bytes that are in flight but no longer tracked, in the middle
of a call. -/
structure Core (m clock : Nat) (next : SpaceId → Nat) (clean : Bool) (extra : Nat) (s : Sys) : Prop where
  sp : ∀ id x, s.spaces id = some x → SpOK clock (next id) id x
  cc : CcOK m s.cc
  ccs : ∀ x ∈ s.others, CcOK m x.2 ∧ x.2.flight = 0
  maybe : MaybeOK next s.pkts s.cc.maybeLost
  maybes : ∀ x ∈ s.others, MaybeOK next s.pkts x.2.maybeLost
  rtt : RttOK s.confirmed s.appSent s.rtt
  rtts : ∀ x ∈ s.others, RttOK s.confirmed s.appSent x.1
  conf : s.confirmed ≠ none ↔ s.spaces .handshake = none
  hs : s.spaces .handshake = none → s.spaces .initial = none
  app : s.spaces .app ≠ none
  pto : ∀ p, s.pto = some p → p.packets ≤ maxPtoPackets
  exact : clean = true → s.cc.flight = tot outLen s + extra
  epoch : clean = true → ∀ id, ∀ p ∈ s.pkts id, (p.primary = true ↔ p.epoch = some s.epoch)
  epochLe : ∀ id, ∀ p ∈ s.pkts id, ∀ e, p.epoch = some e → e ≤ s.epoch

theorem Core.keepEpoch {m clock next clean x s g} (h : Core m clock next clean x s) (k : Keep s.pkts g) :
    (clean = true → ∀ id, ∀ p ∈ g id, (p.primary = true ↔ p.epoch = some s.epoch)) ∧ ∀ id, ∀ p ∈ g id, ∀ e, p.epoch = some e → e ≤ s.epoch := by
  constructor
  · intro hc id q hq
    obtain ⟨p, hp, e1, e2⟩ := k id q hq
    rw [e1, e2]; exact h.epoch hc id p hp
  · intro id q hq e he
    obtain ⟨p, hp, _, e2⟩ := k id q hq
    exact h.epochLe id p hp e (e2 ▸ he)

/-- One if the packet is lost. -/
def lostNum (p : Pkt) : Nat := if p.lost.isSome then 1 else 0
/-- The bytes of the packet if it is lost. -/
def lostBytes (p : Pkt) : Nat := if p.lost.isSome then p.len else 0

/-- The statistics count all lost packets that are tracked. -/
structure StatsOK (s : Sys) : Prop where
  lost : tot lostNum s ≤ s.stats.lost
  bytes : tot lostBytes s ≤ s.stats.bytesLost

/-- What a call does to the tracked packets. -/
structure Moves (next : SpaceId → Nat) (s : Sys) (as ls ps : List Pkt) (s' : Sys) : Prop where
  evol : EvolAll next s.pkts s'.pkts
  acked : ∀ a ∈ as, a ∈ s.pkts a.pt.space ∧ ∀ q ∈ s'.pkts a.pt.space, q.pn ≠ a.pn
  ackedNodup : (as.map Pkt.key).Nodup
  lost : ∀ l ∈ ls, (∃ p ∈ s.pkts l.pt.space, p.pn = l.pn ∧ p.lost = none) ∧ ∀ q ∈ s'.pkts l.pt.space, q.pn = l.pn → q.lost ≠ none
  lostNodup : (ls.map Pkt.key).Nodup
  probes : ∀ l ∈ ps, (∃ p ∈ s.pkts l.pt.space, p.pn = l.pn ∧ p.pto = false ∧ p.lost = none) ∧ ∀ q ∈ s'.pkts l.pt.space, q.pn = l.pn → q.pto = true
  probesNodup : (ps.map Pkt.key).Nodup

theorem Moves.quiet {next s s'} (h : EvolAll next s.pkts s'.pkts) : Moves next s [] [] [] s' :=
  ⟨h, (fun _ h => by cases h), .nil, (fun _ h => by cases h), .nil, (fun _ h => by cases h), .nil⟩

theorem mem_key {l : List Pkt} {p : Pkt} (h : p.key ∈ l.map Pkt.key) : ∃ q ∈ l, q.pt.space = p.pt.space ∧ q.pn = p.pn := by
  obtain ⟨q, hq, e⟩ := List.mem_map.mp h
  unfold Pkt.key at e
  injection e with e1 e2
  exact ⟨q, hq, e1, e2⟩

theorem keys_nodup_append {a b : List Pkt} (ha : (a.map Pkt.key).Nodup) (hb : (b.map Pkt.key).Nodup)
    (hd : ∀ p ∈ a, ∀ q ∈ b, p.pt.space = q.pt.space → p.pn ≠ q.pn) : ((a ++ b).map Pkt.key).Nodup := by
  rw [List.map_append, List.nodup_append]
  refine ⟨ha, hb, ?_⟩
  intro k hk k' hk' e
  obtain ⟨p, hp, rfl⟩ := List.mem_map.mp hk
  obtain ⟨q, hq, rfl⟩ := List.mem_map.mp hk'
  unfold Pkt.key at e
  injection e with e1 e2
  exact hd p hp q hq e1 e2

/-- All numbers of tracked packets have been used. -/
def Below (next : SpaceId → Nat) (s : Sys) : Prop := ∀ id, ∀ p ∈ s.pkts id, p.pn < next id

theorem Core.below {m clock next clean x s} (h : Core m clock next clean x s) : Below next s := by
  intro id p hp
  cases hs : s.spaces id with
  | none => rw [pkts_none hs] at hp; cases hp
  | some sp => rw [pkts_some hs] at hp; exact (h.sp id sp hs).pn p hp

/-- Two phases of a call, the second not acknowledging. -/
theorem Moves.comp {next s s₁ s₂ a₁ l₁ l₂ p₁ p₂} (hb : Below next s) (hb₁ : Below next s₁)
    (h₁ : Moves next s a₁ l₁ p₁ s₁) (h₂ : Moves next s₁ [] l₂ p₂ s₂) : Moves next s a₁ (l₁ ++ l₂) (p₁ ++ p₂) s₂ := by
  have back : ∀ id, ∀ q ∈ s₁.pkts id, ∃ p ∈ s.pkts id, Evol p q := by
    intro id q hq
    rcases h₁.evol id q hq with h | h
    · exact h
    · have := hb₁ id q hq; omega
  have fwd : ∀ id, ∀ (pn : Nat), pn < next id → ∀ q ∈ s₂.pkts id, q.pn = pn → ∃ p ∈ s₁.pkts id, Evol p q := by
    intro id pn hpn q hq he
    rcases h₂.evol id q hq with h | h
    · exact h
    · omega
  refine ⟨h₁.evol.trans h₂.evol, ?_, h₁.ackedNodup, ?_, ?_, ?_, ?_⟩
  · intro a ha
    obtain ⟨h3, h4⟩ := h₁.acked a ha
    refine ⟨h3, fun q hq he => ?_⟩
    obtain ⟨p, hp, e⟩ := fwd _ _ (hb _ a h3) q hq he
    exact h4 p hp (e.pn ▸ he)
  · intro l hl
    rcases List.mem_append.mp hl with hl | hl
    · obtain ⟨⟨p, hp, e, hn⟩, h2⟩ := h₁.lost l hl
      refine ⟨⟨p, hp, e, hn⟩, fun q hq he => ?_⟩
      obtain ⟨r, hr, ev⟩ := fwd _ _ (by have := hb _ p hp; omega) q hq he
      have := h2 r hr (ev.pn ▸ he)
      rw [ev.lost this]; exact this
    · obtain ⟨⟨p, hp, e, hn⟩, h2⟩ := h₂.lost l hl
      refine ⟨?_, h2⟩
      obtain ⟨r, hr, ev⟩ := back _ p hp
      refine ⟨r, hr, ev.pn ▸ e, ?_⟩
      cases hrl : r.lost with
      | none => rfl
      | some t => rw [ev.lost (by rw [hrl]; simp), hrl] at hn; cases hn
  · refine keys_nodup_append h₁.lostNodup h₂.lostNodup ?_
    intro a ha b hb' e1 e2
    obtain ⟨⟨p, hp, e, hn⟩, _⟩ := h₂.lost b hb'
    exact (h₁.lost a ha).2 p (e1 ▸ hp) (by omega) hn
  · intro l hl
    rcases List.mem_append.mp hl with hl | hl
    · obtain ⟨⟨p, hp, e, hn⟩, h2⟩ := h₁.probes l hl
      refine ⟨⟨p, hp, e, hn⟩, fun q hq he => ?_⟩
      obtain ⟨r, hr, ev⟩ := fwd _ _ (by have := hb _ p hp; omega) q hq he
      exact ev.pto (h2 r hr (ev.pn ▸ he))
    · obtain ⟨⟨p, hp, e, hn, hn'⟩, h2⟩ := h₂.probes l hl
      refine ⟨?_, h2⟩
      obtain ⟨r, hr, ev⟩ := back _ p hp
      refine ⟨r, hr, ev.pn ▸ e, ?_, ?_⟩
      · cases hrl : r.pto with
        | false => rfl
        | true => rw [ev.pto hrl] at hn; cases hn
      · cases hrl : r.lost with
        | none => rfl
        | some t => rw [ev.lost (by rw [hrl]; simp), hrl] at hn'; cases hn'
  · refine keys_nodup_append h₁.probesNodup h₂.probesNodup ?_
    intro a ha b hb' e1 e2
    obtain ⟨⟨p, hp, e, hn, _⟩, _⟩ := h₂.probes b hb'
    have := (h₁.probes a ha).2 p (e1 ▸ hp) (by omega)
    rw [this] at hn; cases hn

/-- Every packet that was not lost before is acknowledged, found lost, or still tracked as not lost. -/
def Fwd (s : Sys) (as ls : List Pkt) (s' : Sys) : Prop :=
  ∀ id, ∀ p ∈ s.pkts id, p.lost = none → p ∈ as ∨ (∃ l ∈ ls, Evol p l) ∨ ∃ q ∈ s'.pkts id, Evol p q ∧ q.lost = none

theorem Fwd.refl {s s' : Sys} (h : s'.pkts = s.pkts) : Fwd s [] [] s' := fun id p hp hl => .inr (.inr ⟨p, by rw [h]; exact hp, .refl p, hl⟩)

theorem Fwd.comp {s s₁ s₂ as l₁ l₂} (a : Fwd s as l₁ s₁) (b : Fwd s₁ [] l₂ s₂) : Fwd s as (l₁ ++ l₂) s₂ := by
  intro id p hp hl
  rcases a id p hp hl with h | ⟨l, h, e⟩ | ⟨q, hq, e, hn⟩
  · exact .inl h
  · exact .inr (.inl ⟨l, List.mem_append_left _ h, e⟩)
  · rcases b id q hq hn with h | ⟨l, h, e'⟩ | ⟨r, hr, e', hn'⟩
    · cases h
    · exact .inr (.inl ⟨l, List.mem_append_right _ h, e.trans e'⟩)
    · exact .inr (.inr ⟨r, hr, e.trans e', hn'⟩)

theorem sorted_keys_nodup {ps : List Pkt} (h : Sorted ps) : (ps.map Pkt.key).Nodup := by
  unfold List.Nodup
  rw [List.pairwise_map]
  refine List.Pairwise.imp ?_ h
  intro a b hab e
  unfold Pkt.key at e
  injection e with _ e2
  omega

end Neqo.Rec
