import Verif.SendStream.TrackerLemmas

/-! # `unmark_range`: lemmas -/
namespace Neqo.Send
open SMap

theorem unmarkGo_ok {off stop : Nat} {u : Used} : ∀ {L : List Ent} {rem : List Nat} {add : Option (Nat × Nat)},
    L.Pairwise (fun a b => b.1 < a.1) →
    (∀ e ∈ L, 0 < e.2.1) → (∀ e ∈ L, ∀ e' ∈ L, e.1 < e'.1 → fin e ≤ e'.1) → (∀ e ∈ L, e.1 < stop) →
    (add = none ∨ ∀ e ∈ L, fin e ≤ stop) →
    ∃ u' rem' add', unmarkGo off stop u rem add L = .ok (u', rem', add') ∧
      (∀ k, k ∈ rem' ↔ k ∈ rem ∨ ∃ l, (k, (l, .sent)) ∈ L ∧ off ≤ k) ∧
      ((add' = add ∧ ∀ e ∈ L, off ≤ e.1 → e.2.2 = .sent → fin e ≤ stop) ∨
       (add = none ∧ ∃ o l, (o, (l, .sent)) ∈ L ∧ off ≤ o ∧ stop < o + l ∧ add' = some (stop, o + l - stop))) ∧
      ((u' = u ∧ ∀ e ∈ L, e.1 < off → e.2.2 = .sent → fin e ≤ off) ∨
       (∃ o l, (o, (l, .sent)) ∈ L ∧ o < off ∧ off < o + l ∧ u' = u.insert o (off - o, .sent))) := by
  intro L
  induction L with
  | nil =>
    intro rem add _ _ _ _ _
    exact ⟨u, rem, add, rfl, by simp, .inl ⟨rfl, by simp⟩, .inl ⟨rfl, by simp⟩⟩
  | cons e L ih =>
    intro rem add hs hp hd hb ha
    obtain ⟨o, l, s⟩ := e
    rw [List.pairwise_cons] at hs
    have hfin : ∀ e ∈ L, fin e ≤ o := fun e he =>
      hd e (by simp [he]) _ (List.mem_cons_self ..) (hs.1 e he)
    have hlt : ∀ e ∈ L, e.1 < o := hs.1
    have hostop : o < stop := hb _ (List.mem_cons_self ..)
    have ih' := fun (rem : List Nat) (add : Option (Nat × Nat)) ha => ih (rem := rem) (add := add) hs.2
      (fun e he => hp e (by simp [he])) (fun e he e' he' => hd e (by simp [he]) e' (by simp [he']))
      (fun e he => hb e (by simp [he])) ha
    unfold unmarkGo
    by_cases h1 : o < off
    · rw [if_pos h1]
      have hrem : ∀ k, k ∈ rem ↔ k ∈ rem ∨ ∃ l', (k, (l', RS.sent)) ∈ (o, (l, s)) :: L ∧ off ≤ k := by
        intro k
        constructor
        · exact .inl
        · rintro (h | ⟨l', h, h'⟩)
          · exact h
          · rcases List.mem_cons.mp h with h | h
            · cases h; omega
            · have := hlt _ h; simp only at this; omega
      have hadd : ∀ e ∈ (o, (l, s)) :: L, off ≤ e.1 → e.2.2 = .sent → fin e ≤ stop := by
        intro e he h'
        rcases List.mem_cons.mp he with rfl | he
        · simp only at h'; omega
        · have := hlt e he; omega
      have hrest : ∀ e ∈ L, fin e ≤ off := fun e he => by have := hfin e he; omega
      by_cases h2 : o + l > off
      · rw [if_pos h2]
        cases s with
        | acked =>
          refine ⟨_, _, _, rfl, hrem, .inl ⟨rfl, hadd⟩, .inl ⟨rfl, ?_⟩⟩
          intro e he _ h'
          rcases List.mem_cons.mp he with rfl | he
          · cases h'
          · exact hrest e he
        | sent =>
          exact ⟨_, _, _, rfl, hrem, .inl ⟨rfl, hadd⟩,
            .inr ⟨o, l, List.mem_cons_self .., h1, h2, rfl⟩⟩
      · rw [if_neg h2]
        refine ⟨_, _, _, rfl, hrem, .inl ⟨rfl, hadd⟩, .inl ⟨rfl, ?_⟩⟩
        intro e he _ h'
        rcases List.mem_cons.mp he with rfl | he
        · simp only [fin]; omega
        · exact hrest e he
    · rw [if_neg h1]
      cases s with
      | acked =>
        simp only
        obtain ⟨u', rem', add', he, hr, hA, hU⟩ := ih' rem add
          (ha.imp id (fun h e he => h e (by simp [he])))
        refine ⟨u', rem', add', he, fun k => ?_, ?_, ?_⟩
        · rw [hr]
          constructor
          · rintro (h | ⟨l', h, h'⟩)
            · exact .inl h
            · exact .inr ⟨l', by simp [h], h'⟩
          · rintro (h | ⟨l', h, h'⟩)
            · exact .inl h
            · rcases List.mem_cons.mp h with h | h
              · cases h
              · exact .inr ⟨l', h, h'⟩
        · rcases hA with ⟨h, h'⟩ | ⟨h, o', l', h2, h3, h4, h5⟩
          · refine .inl ⟨h, fun e he h1 h2 => ?_⟩
            rcases List.mem_cons.mp he with rfl | he
            · cases h2
            · exact h' e he h1 h2
          · exact .inr ⟨h, o', l', by simp [h2], h3, h4, h5⟩
        · rcases hU with ⟨h, h'⟩ | ⟨o', l', h2, h3⟩
          · refine .inl ⟨h, fun e he h1 h2 => ?_⟩
            rcases List.mem_cons.mp he with rfl | he
            · cases h2
            · exact h' e he h1 h2
          · exact .inr ⟨o', l', by simp [h2], h3⟩
      | sent =>
        simp only
        have hrest : ∀ e ∈ L, fin e ≤ stop := fun e he => by have := hfin e he; omega
        have hrem : ∀ (rem' : List Nat), (∀ k, k ∈ rem' ↔ k ∈ o :: rem ∨ ∃ l, (k, (l, RS.sent)) ∈ L ∧ off ≤ k) →
            ∀ k, k ∈ rem' ↔ k ∈ rem ∨ ∃ l', (k, (l', RS.sent)) ∈ (o, (l, RS.sent)) :: L ∧ off ≤ k := by
          intro rem' hr k
          rw [hr]
          constructor
          · rintro (h | ⟨l', h, h'⟩)
            · rcases List.mem_cons.mp h with rfl | h
              · exact .inr ⟨l, List.mem_cons_self .., by omega⟩
              · exact .inl h
            · exact .inr ⟨l', by simp [h], h'⟩
          · rintro (h | ⟨l', h, h'⟩)
            · exact .inl (by simp [h])
            · rcases List.mem_cons.mp h with h | h
              · cases h
                exact .inl (by simp)
              · exact .inr ⟨l', h, h'⟩
        have hU' : ∀ u', ((u' = u ∧ ∀ e ∈ L, e.1 < off → e.2.2 = RS.sent → fin e ≤ off) ∨
            (∃ o l, (o, (l, RS.sent)) ∈ L ∧ o < off ∧ off < o + l ∧ u' = u.insert o (off - o, .sent))) →
            ((u' = u ∧ ∀ e ∈ (o, (l, RS.sent)) :: L, e.1 < off → e.2.2 = .sent → fin e ≤ off) ∨
            (∃ o' l', (o', (l', RS.sent)) ∈ (o, (l, RS.sent)) :: L ∧ o' < off ∧ off < o' + l' ∧
              u' = u.insert o' (off - o', .sent))) := by
          rintro u' (⟨h, h'⟩ | ⟨o', l', h2, h3⟩)
          · refine .inl ⟨h, fun e he h1 h2 => ?_⟩
            rcases List.mem_cons.mp he with rfl | he
            · simp only at h1; omega
            · exact h' e he h1 h2
          · exact .inr ⟨o', l', by simp [h2], h3⟩
        by_cases h2 : o + l > stop
        · rw [if_pos h2]
          have hn : add = none := by
            rcases ha with h | h
            · exact h
            · have := h _ (List.mem_cons_self ..)
              simp only [fin] at this; omega
          rw [if_pos hn]
          obtain ⟨u', rem', add', he, hr, hA, hU⟩ := ih' (o :: rem) (some (stop, o + l - stop)) (.inr hrest)
          refine ⟨u', rem', add', he, hrem rem' hr, .inr ⟨hn, o, l, List.mem_cons_self .., by omega, h2, ?_⟩, hU' u' hU⟩
          rcases hA with ⟨h, _⟩ | ⟨h, _⟩
          · exact h
          · cases h
        · rw [if_neg h2]
          obtain ⟨u', rem', add', he, hr, hA, hU⟩ := ih' (o :: rem) add (.inr hrest)
          refine ⟨u', rem', add', he, hrem rem' hr, ?_, hU' u' hU⟩
          rcases hA with ⟨h, h'⟩ | ⟨h, o', l', h3, h4⟩
          · refine .inl ⟨h, fun e he h1 h3 => ?_⟩
            rcases List.mem_cons.mp he with rfl | he
            · simp only [fin]; omega
            · exact h' e he h1 h3
          · exact .inr ⟨h, o', l', by simp [h3], h4⟩

/-- A sent range that starts before `off` and goes on past it, containing `i`. -/
def Straddles (u : Used) (off i : Nat) : Prop :=
  ∃ e ∈ u, e.2.2 = .sent ∧ e.1 < off ∧ off < fin e ∧ i < fin e

theorem unmark_ok {t : Tracker} (h : TOk t) (off len : Nat) :
    ∃ t', t.unmark off len = .ok t' ∧ TOk t' ∧ t'.acked = t.acked ∧
    (∀ i, AckedAt t' i ↔ AckedAt t i) ∧
    (∀ i, SentAt t' i ↔ SentAt t i ∧ ¬ (off ≤ i ∧ i < off + len) ∧
      ¬ (0 < len ∧ off ≤ i ∧ Straddles t.used off i)) := by
  unfold Tracker.unmark
  by_cases hz : len = 0
  · rw [if_pos hz]
    refine ⟨t, rfl, h, rfl, fun i => Iff.rfl, fun i => ⟨fun h' => ⟨h', by omega, by omega⟩, fun h' => h'.1⟩⟩
  rw [if_neg hz]
  have hL : ∀ e, e ∈ (t.used.below (off + len)).reverse ↔ e ∈ t.used ∧ e.1 < off + len := by
    intro e
    rw [List.mem_reverse, mem_below]
  have hu := h.u
  obtain ⟨u', rem, add, he, hrem, hadd, hu'⟩ := unmarkGo_ok (off := off) (stop := off + len) (u := t.used)
    (L := (t.used.below (off + len)).reverse) (rem := []) (add := none)
    (by rw [List.pairwise_reverse]; exact hu.sorted.filter _)
    (fun e he => hu.pos e ((hL e).mp he).1)
    (fun e he e' he' => hu.disj e ((hL e).mp he).1 e' ((hL e').mp he').1)
    (fun e he => ((hL e).mp he).2) (.inl rfl)
  rw [he]
  simp only
  clear he
  -- the keys to remove, seen from the original entries
  have hrem' : ∀ e ∈ t.used, (e.1 ∈ rem ↔ off ≤ e.1 ∧ e.1 < off + len ∧ e.2.2 = .sent) := by
    intro e he
    rw [hrem]
    constructor
    · rintro (h1 | ⟨l', h1, h2⟩)
      · cases h1
      · have h3 := (hL _).mp h1
        have := hu.sorted.unique he h3.1 rfl
        rw [this]
        exact ⟨h2, h3.2, rfl⟩
    · rintro ⟨h1, h2, h3⟩
      refine .inr ⟨e.2.1, ?_, h1⟩
      rw [hL, ← h3]
      exact ⟨he, h2⟩
  -- first the cut of a straddling range
  have hcut : Sorted u' ∧ ∀ e, e ∈ u' ↔
      (e ∈ t.used ∧ ¬ (e.2.2 = .sent ∧ e.1 < off ∧ off < fin e)) ∨
      (∃ l, (e.1, (l, .sent)) ∈ t.used ∧ e.1 < off ∧ off < e.1 + l ∧ e = (e.1, (off - e.1, .sent))) := by
    rcases hu' with ⟨rfl, hno⟩ | ⟨o, l, hm, h1, h2, rfl⟩
    · refine ⟨hu.sorted, fun e => ⟨fun he => .inl ⟨he, ?_⟩, ?_⟩⟩
      · rintro ⟨h1, h2, h3⟩
        have := hno e ((hL e).mpr ⟨he, by omega⟩) h2 h1
        omega
      · rintro (he | ⟨l, h1, h2, h3, h4⟩)
        · exact he.1
        · have := hno _ ((hL _).mpr ⟨h1, by simp only; omega⟩) h2 rfl
          simp only [fin] at this; omega
    · have hm' := ((hL _).mp hm).1
      refine ⟨hu.sorted.insert _ _, fun e => ?_⟩
      rw [mem_insert]
      constructor
      · rintro (rfl | ⟨he, hne⟩)
        · exact .inr ⟨l, hm', h1, h2, rfl⟩
        · refine .inl ⟨he, ?_⟩
          rintro ⟨h3, h4, h5⟩
          apply hne
          have := hu.inj he hm' (i := off) (by omega) h5 (by simp only; omega) h2
          rw [this]
      · rintro (⟨he, hn⟩ | ⟨l', h3, h4, h5, h6⟩)
        · refine .inr ⟨he, fun heq => hn ?_⟩
          have := hu.sorted.unique he hm' heq
          rw [this]
          exact ⟨rfl, h1, h2⟩
        · have := hu.inj h3 hm' (i := off) (by simp only; omega) h5 (by simp only; omega) h2
          have h7 : e.1 = o := congrArg (·.1) this
          left
          rw [h6, h7]
  obtain ⟨hs', hm'⟩ := hcut
  -- then the removals and the tail
  have hres : ∃ u2, addBack (eraseAll u' rem) add = u2 ∧ Sorted u2 ∧ ∀ e, e ∈ u2 ↔
      (e ∈ t.used ∧ ¬ (e.2.2 = .sent ∧ off ≤ e.1 ∧ e.1 < off + len) ∧
        ¬ (e.2.2 = .sent ∧ e.1 < off ∧ off < fin e)) ∨
      (∃ l, (e.1, (l, .sent)) ∈ t.used ∧ e.1 < off ∧ off < e.1 + l ∧ e = (e.1, (off - e.1, .sent))) ∨
      (∃ o l, (o, (l, .sent)) ∈ t.used ∧ off ≤ o ∧ o < off + len ∧ off + len < o + l ∧
        e = (off + len, (o + l - (off + len), .sent))) := by
    have hbase : ∀ e, e ∈ eraseAll u' rem ↔
        (e ∈ t.used ∧ ¬ (e.2.2 = .sent ∧ off ≤ e.1 ∧ e.1 < off + len) ∧
          ¬ (e.2.2 = .sent ∧ e.1 < off ∧ off < fin e)) ∨
        (∃ l, (e.1, (l, .sent)) ∈ t.used ∧ e.1 < off ∧ off < e.1 + l ∧ e = (e.1, (off - e.1, .sent))) := by
      intro e
      rw [mem_eraseAll, hm']
      constructor
      · rintro ⟨⟨h1, h2⟩ | h1, h3⟩
        · rw [hrem' e h1] at h3
          exact .inl ⟨h1, fun h4 => h3 ⟨h4.2.1, h4.2.2, h4.1⟩, h2⟩
        · exact .inr h1
      · rintro (⟨h1, h2, h3⟩ | h1)
        · refine ⟨.inl ⟨h1, h3⟩, ?_⟩
          rw [hrem' e h1]
          exact fun h4 => h2 ⟨h4.2.2, h4.1, h4.2.1⟩
        · refine ⟨.inr h1, ?_⟩
          obtain ⟨l, h2, h3, _⟩ := h1
          intro h4
          have := ((hrem' _ h2).mp h4).1
          simp only at this; omega
    rcases hadd with ⟨rfl, hno⟩ | ⟨_, o, l, hm, h1, h2, rfl⟩
    · refine ⟨_, rfl, sorted_eraseAll hs' _, fun e => ?_⟩
      rw [addBack, hbase]
      constructor
      · rintro (h1 | h1)
        · exact .inl h1
        · exact .inr (.inl h1)
      · rintro (h1 | h1 | ⟨o, l, h1, h2, h3, h4, _⟩)
        · exact .inl h1
        · exact .inr h1
        · have := hno _ ((hL _).mpr ⟨h1, h3⟩) h2 rfl
          simp only [fin] at this; omega
    · have hmm := (hL _).mp hm
      simp only at hmm
      refine ⟨_, rfl, (sorted_eraseAll hs' _).insert _ _, fun e => ?_⟩
      rw [addBack, mem_insert, hbase]
      constructor
      · rintro (h3 | ⟨h3 | h3, _⟩)
        · exact .inr (.inr ⟨o, l, hmm.1, h1, hmm.2, h2, h3⟩)
        · exact .inl h3
        · exact .inr (.inl h3)
      · rintro (h3 | h3 | ⟨o', l', h3, h4, h5, h6, h7⟩)
        · refine .inr ⟨.inl h3, fun heq => ?_⟩
          have := hu.disj _ hmm.1 e h3.1 (by simp only; omega)
          simp only [fin] at this; omega
        · refine .inr ⟨.inr h3, fun heq => ?_⟩
          obtain ⟨_, _, h4, _⟩ := h3
          omega
        · have := hu.inj h3 hmm.1 (i := off + len) (by simp only; omega) h6 (by simp only; omega) h2
          cases this
          exact .inl h7
  obtain ⟨u2, hu2, hs2, hm2⟩ := hres
  rw [hu2]
  clear hu2 hm' hs' hrem hrem' hadd hu'
  have hst : ∀ e ∈ t.used, ∀ e' ∈ t.used, e.1 < off → off < fin e → e'.1 ≤ e.1 ∨ fin e ≤ e'.1 := by
    intro e he e' he' h1 h2
    rcases Nat.lt_or_ge e.1 e'.1 with h3 | h3
    · exact .inr (hu.disj e he e' he' h3)
    · exact .inl h3
  -- every new entry is part of an old one with the same state
  have hsub : ∀ e ∈ u2, 0 < e.2.1 ∧ ∃ e0 ∈ t.used, e0.2.2 = e.2.2 ∧ e0.1 ≤ e.1 ∧ fin e ≤ fin e0 ∧
      (e.2.2 = .acked → e0 = e) := by
    intro e he
    rcases (hm2 e).mp he with ⟨h1, _⟩ | ⟨l, h1, h2, h3, h4⟩ | ⟨o, l, h1, h2, h3, h4, h5⟩
    · exact ⟨hu.pos e h1, e, h1, rfl, Nat.le_refl _, Nat.le_refl _, fun _ => rfl⟩
    · rw [h4]
      exact ⟨by simp only; omega, _, h1, rfl, Nat.le_refl _, by simp only [fin]; omega, fun h => by cases h⟩
    · rw [h5]
      exact ⟨by simp only; omega, _, h1, rfl, by simp only; omega, by simp only [fin]; omega,
        fun h => by cases h⟩
  have hdisj : ∀ e ∈ u2, ∀ e' ∈ u2, e.1 < e'.1 → fin e ≤ e'.1 := by
    intro e he e' he' hlt
    have hp' := (hsub e' he').1
    have hp := (hsub e he).1
    rcases (hm2 e).mp he with ⟨h1, h1a, h1b⟩ | ⟨l, h1, h2, h3, h4⟩ | ⟨o, l, h1, h2, h3, h4, h5⟩ <;>
      rcases (hm2 e').mp he' with ⟨h1', h1a', h1b'⟩ | ⟨l', h1', h2', h3', h4'⟩ | ⟨o', l', h1', h2', h3', h4', h5'⟩
    · exact hu.disj e h1 e' h1' hlt
    · exact hu.disj e h1 (e'.1, (l', .sent)) h1' hlt
    · rw [h5'] at hlt ⊢
      simp only at hlt ⊢
      rcases Nat.lt_or_ge o' e.1 with h6 | h6
      · have := hu.disj _ h1' e h1 h6
        simp only [fin] at this; omega
      · rcases Nat.lt_or_ge e.1 o' with h7 | h7
        · have := hu.disj e h1 _ h1' h7
          simp only at this; omega
        · have := hu.sorted.unique h1 h1' (by simp only; omega)
          rw [this] at h1a
          exact absurd ⟨rfl, h2', h3'⟩ h1a
    · rw [h4]
      have := hu.disj _ h1 e' h1' hlt
      simp only [fin] at this ⊢; omega
    · rw [h4] at hlt ⊢
      rw [h4'] at hlt ⊢
      simp only at hlt
      have := hu.disj _ h1 _ h1' hlt
      simp only [fin] at this ⊢; omega
    · rw [h4] at hlt ⊢
      rw [h5'] at hlt ⊢
      simp only [fin]; omega
    · rw [h5] at hlt ⊢
      simp only at hlt
      have := hu.disj _ h1 e' h1' (by simp only; omega)
      simp only [fin] at this ⊢; omega
    · rw [h5] at hlt
      simp only at hlt
      omega
    · rw [h5] at hlt
      rw [h5'] at hlt
      simp only at hlt; omega
  have hAck : ∀ e, e.2.2 = .acked → (e ∈ u2 ↔ e ∈ t.used) := by
    intro e hs
    rw [hm2]
    constructor
    · rintro (h1 | ⟨l, _, _, _, h4⟩ | ⟨o, l, _, _, _, _, h5⟩)
      · exact h1.1
      · rw [h4] at hs; cases hs
      · rw [h5] at hs; cases hs
    · intro h1
      refine .inl ⟨h1, ?_, ?_⟩
      · rw [hs]; rintro ⟨h2, _⟩; cases h2
      · rw [hs]; rintro ⟨h2, _⟩; cases h2
  refine ⟨_, rfl, ⟨⟨hs2, fun e he => (hsub e he).1, hdisj⟩, ?_, ?_, ?_, .inl rfl⟩, rfl, ?_, ?_⟩
  · intro e he e' he' hs1 hs1' hlt
    exact h.apart e ((hAck e hs1).mp he) e' ((hAck e' hs1').mp he') hs1 hs1' hlt
  · intro e he
    obtain ⟨_, e0, h1, _, h2, _⟩ := hsub e he
    have := h.low e0 h1
    simp only; omega
  · intro e he hs1
    exact h.lowA e ((hAck e hs1).mp he) hs1
  · intro i
    unfold AckedAt
    simp only
    constructor
    · rintro (h1 | ⟨e, he, hs1, h1⟩)
      · exact .inl h1
      · exact .inr ⟨e, (hAck e hs1).mp he, hs1, h1⟩
    · rintro (h1 | ⟨e, he, hs1, h1⟩)
      · exact .inl h1
      · exact .inr ⟨e, (hAck e hs1).mpr he, hs1, h1⟩
  · intro i
    unfold SentAt
    simp only
    constructor
    · rintro ⟨e, he, hs1, h1, h2⟩
      obtain ⟨hp, e0, h3, h4, h5, h6, _⟩ := hsub e he
      refine ⟨⟨e0, h3, by rw [h4]; exact hs1, by omega, by omega⟩, ?_, ?_⟩
      · rintro ⟨h7, h8⟩
        rcases (hm2 e).mp he with ⟨g1, g2, g3⟩ | ⟨l, g1, g2, g3, g4⟩ | ⟨o, l, g1, g2, g3, g4, g5⟩
        · rcases Nat.lt_or_ge e.1 off with g4 | g4
          · exact g3 ⟨hs1, g4, by omega⟩
          · exact g2 ⟨hs1, g4, by omega⟩
        · rw [g4] at h2
          simp only [fin] at h2; omega
        · rw [g5] at h1
          simp only at h1; omega
      · rintro ⟨_, h7, ⟨es, k1, k2, k3, k4, k5⟩⟩
        have h8 := hu.inj h3 k1 (i := i) (by omega) (by omega) (by omega) k5
        subst h8
        rcases (hm2 e).mp he with ⟨g1, g2, g3⟩ | ⟨l, g1, g2, g3, g4⟩ | ⟨o, l, g1, g2, g3, g4, g5⟩
        · have := hu.inj g1 h3 (i := i) h1 h2 (by omega) (by omega)
          subst this
          exact g3 ⟨hs1, k3, k4⟩
        · rw [g4] at h2
          simp only [fin] at h2; omega
        · rw [g5] at h1 h2
          simp only [fin] at h1 h2
          have := hu.inj g1 h3 (i := i) (by simp only; omega) (by simp only [fin]; omega) (by omega) (by omega)
          rw [← this] at k3
          simp only at k3; omega
    · rintro ⟨⟨e, he, hs1, h1, h2⟩, h3, h4⟩
      by_cases c1 : e.1 < off ∧ off < fin e
      · have h5 : i < off := by
          rcases Nat.lt_or_ge i off with h5 | h5
          · exact h5
          · exact absurd ⟨by omega, h5, e, he, hs1, c1.1, c1.2, h2⟩ h4
        refine ⟨(e.1, (off - e.1, .sent)), (hm2 _).mpr (.inr (.inl ⟨e.2.1, ?_, c1.1, c1.2, rfl⟩)), rfl, h1,
          by simp only [fin]; omega⟩
        rw [← hs1]; exact he
      · by_cases c2 : off ≤ e.1 ∧ e.1 < off + len
        · have h6 : off + len ≤ i := by omega
          unfold fin at h2
          refine ⟨(off + len, (e.1 + e.2.1 - (off + len), .sent)),
            (hm2 _).mpr (.inr (.inr ⟨e.1, e.2.1, ?_, c2.1, c2.2, by omega, rfl⟩)), rfl, h6,
            by simp only [fin]; omega⟩
          rw [← hs1]; exact he
        · exact ⟨e, (hm2 e).mpr (.inl ⟨he, fun g => c2 g.2, fun g => c1 g.2⟩), hs1, h1, h2⟩

theorem highest_ok {t : Tracker} (h : TOk t) : t.acked ≤ t.highest ∧
    ∀ e ∈ t.used, fin e ≤ t.highest := by
  unfold Tracker.highest
  cases hl : t.used.getLast? with
  | none =>
    rw [List.getLast?_eq_none_iff] at hl
    rw [hl]
    exact ⟨Nat.le_refl _, by simp⟩
  | some x =>
    obtain ⟨k, v, s⟩ := x
    obtain ⟨ys, hys⟩ := List.getLast?_eq_some_iff.mp hl
    have hx : (k, (v, s)) ∈ t.used := by rw [hys]; simp
    simp only
    refine ⟨by have := h.low _ hx; simp only at this; omega, fun e he => ?_⟩
    have hs := h.u.sorted
    rw [hys] at hs he
    rcases List.mem_append.mp he with h1 | h1
    · have h2 := (sorted_append.mp hs).2.2 e h1 (k, (v, s)) (by simp)
      have := h.u.disj e (by rw [hys]; simp [h1]) _ hx h2
      simp only at this; omega
    · simp at h1
      rw [h1]
      simp [fin]

theorem unmarkSent_ok {t : Tracker} (h : TOk t) :
    ∃ t', t.unmarkSent = .ok t' ∧ TOk t' ∧ t'.acked = t.acked ∧
    (∀ i, AckedAt t' i ↔ AckedAt t i) ∧ (∀ i, ¬ SentAt t' i) := by
  obtain ⟨t', h1, h2, h3, h4, h5⟩ := unmark_ok h 0 t.highest
  refine ⟨t', h1, h2, h3, h4, fun i hi => ?_⟩
  obtain ⟨⟨e, he, _, _, h6⟩, h7, _⟩ := (h5 i).mp hi
  have := (highest_ok h).2 e he
  omega

theorem step_ok {t : Tracker} (h : TOk t) (op : TOp) : ∃ t', t.step op = .ok t' ∧ TOk t' := by
  cases op with
  | acked o l => exact ⟨_, rfl, (markAcked_ok h o l).1⟩
  | sent o l =>
    obtain ⟨t', h1, h2, _⟩ := markSent_ok h o l
    exact ⟨t', h1, h2⟩
  | lost o l =>
    obtain ⟨t', h1, h2, _⟩ := unmark_ok h o l
    exact ⟨t', h1, h2⟩
  | lostAll =>
    obtain ⟨t', h1, h2, _⟩ := unmarkSent_ok h
    exact ⟨t', h1, h2⟩
  | query =>
    refine ⟨_, rfl, ?_⟩
    unfold Tracker.firstUnmarked
    split
    · exact h
    · exact ⟨h.u, h.apart, h.low, h.lowA, .inr rfl⟩

theorem run_ok {ops : List TOp} : ∀ {t : Tracker}, TOk t → ∃ t', t.run ops = .ok t' ∧ TOk t' := by
  induction ops with
  | nil => intro t h; exact ⟨t, rfl, h⟩
  | cons op ops ih =>
    intro t h
    obtain ⟨t1, h1, h2⟩ := step_ok h op
    obtain ⟨t2, h3, h4⟩ := ih h2
    exact ⟨t2, by simp only [Tracker.run, h1]; exact h3, h4⟩

end Neqo.Send
