import Verif.Recovery.Hist

/-! # No packet is forgotten -/
namespace Neqo.Rec

variable {m : Nat} {h h' : Hist} {e : Ev} {o : Out} {s' : Sys}

theorem onSent_pkts {s s' : Sys} {p : Pkt} {on : Option Nat} (h : s.onSent p on = .ok s') :
    ∀ j, s'.pkts j = if j = p.pt.space ∧ s.spaces j ≠ none then s.pkts j ++ [sentPkt s p on] else s.pkts j := by
  intro j
  cases hs : s.spaces j with
  | none =>
    rw [if_neg (fun hc => hc.2 rfl), pkts_none hs]
    cases hs' : s'.spaces j with
    | none => exact pkts_none hs'
    | some sp' =>
      obtain ⟨sp, h1, _⟩ := onSent_frame h j sp' hs'
      rw [hs] at h1; cases h1
  | some sp =>
    have hsome : ∃ sp', s'.spaces j = some sp' := by
      unfold Sys.onSent at h
      simp only at h
      split at h
      · injection h with h
        rw [← h]
        exact ⟨sp, hs⟩
      · rename_i x hx
        split at h
        · cases h
        · rename_i sp₁ _
          injection h with h
          have hps : s'.spaces = fun i => if i = p.pt.space then some sp₁ else s.spaces i := by
            rw [← h]
            unfold Sys.setSpace Sys.pathSent
            cases on <;> rfl
          rw [hps]
          simp only
          split
          · exact ⟨_, rfl⟩
          · exact ⟨sp, hs⟩
    obtain ⟨sp', hs'⟩ := hsome
    obtain ⟨sp₂, h1, _, h3⟩ := onSent_frame h j sp' hs'
    rw [hs] at h1
    injection h1 with h1
    rw [pkts_some hs', pkts_some hs]
    split at h3
    · rename_i hj
      rw [if_pos ⟨hj, by simp⟩, h3.1, h1]
    · rename_i hj
      rw [if_neg (fun hc => hj hc.1), h3, h1]

/-- Checking the probe timer forgets no packet. -/
theorem FOut.fwd {now : Nat} {s s' : Sys} {probes : List Pkt} (f : FOut now s probes s') : Fwd s [] [] s' := by
  rcases f.cases with ⟨_, h2, _⟩ | ⟨due, pt, sc, c1, c2, _⟩
  · exact .refl (by funext j; unfold Sys.pkts; rw [h2])
  · intro id p hp hl
    rcases c1.fwd id p hp with h1 | ⟨h1, h2⟩
    · exact .inr (.inr ⟨p, by rw [c2]; exact h1, .refl p, hl⟩)
    · exact .inr (.inr ⟨p.marked, by rw [c2]; exact h2, .marked p, hl⟩)

/-- What becomes of a packet that was tracked and not lost. -/
theorem Inv.fwd (hi : Inv m h) (hl : Legal m h e) (hs : h.s.step e = .ok (s', o)) :
    ∀ id, ∀ p ∈ h.s.pkts id, p.lost = none →
      p ∈ o.acked ∨ (∃ l ∈ o.lost, Evol p l) ∨ p ∈ o.dropped ∨ ∃ q ∈ s'.pkts id, Evol p q ∧ q.lost = none := by
  have same : ∀ t : Sys, t.pkts = h.s.pkts → ∀ id, ∀ p ∈ h.s.pkts id, p.lost = none →
      p ∈ o.acked ∨ (∃ l ∈ o.lost, Evol p l) ∨ p ∈ o.dropped ∨ ∃ q ∈ t.pkts id, Evol p q ∧ q.lost = none :=
    fun t ht id p hp hn => .inr (.inr (.inr ⟨p, by rw [ht]; exact hp, .refl p, hn⟩))
  cases e with
  | send p on =>
    obtain ⟨r, hr, e1⟩ := map_eq_ok hs
    injection e1 with e1 e2
    subst e1 e2
    intro id q hq hn
    refine .inr (.inr (.inr ⟨q, ?_, .refl q, hn⟩))
    rw [onSent_pkts hr id]
    split
    · exact List.mem_append_left _ hq
    · exact hq
  | ack id rs i now =>
    obtain ⟨s₁, lost, h1, h2, h3, h4, h5, h6⟩ := hi.core.onAck hi.stats (id := id) (i := i) hl.1 hl.2.1 hl.2.2
    have hf := hi.core.onAck_fwd h5 h6
    obtain ⟨r, hr, e1⟩ := map_eq_ok hs
    rw [h1] at hr
    injection hr with hr
    subst hr
    injection e1 with e1 e2
    subst e1 e2
    intro j p hp hn
    rcases hf j p hp hn with h | h | h
    · exact .inl h
    · exact .inr (.inl h)
    · exact .inr (.inr (.inr h))
  | timeout now hk =>
    obtain ⟨r, hr, e1⟩ := map_eq_ok hs
    obtain ⟨sm, g1, g2, g3, g4, g5⟩ := hi.core.onTimeout_out hi.stats hl hr
    injection e1 with e1 e2
    subst e1 e2
    intro j p hp hn
    rcases (g3.fwd.comp g4.fwd) j p hp hn with h | h | h
    · cases h
    · rw [List.append_nil] at h; exact .inr (.inl h)
    · exact .inr (.inr (.inr h))
  | retry now =>
    obtain ⟨r, hr, e1⟩ := map_eq_ok hs
    injection e1 with e1 e2
    subst e1 e2
    intro id p hp hn
    refine .inr (.inr (.inl ?_))
    show p ∈ r.2
    unfold Sys.retry at hr
    simp only at hr
    split at hr
    · cases hr
    · injection hr with hr
      rw [← hr]
      simp only [List.mem_append]
      cases id
      · exact .inl (.inl hp)
      · exact .inl (.inr hp)
      · exact .inr hp
  | drop0rtt now =>
    obtain ⟨r, hr, e1⟩ := map_eq_ok hs
    injection e1 with e1 e2
    subst e1 e2
    intro id p hp hn
    show _ ∨ _ ∨ p ∈ r.2 ∨ _
    unfold Sys.drop0rtt at hr
    split at hr
    · injection hr with hr; rw [← hr]; exact .inr (.inr (.inr ⟨p, hp, .refl p, hn⟩))
    · rename_i sp hsp
      split at hr
      · injection hr with hr; rw [← hr]; exact .inr (.inr (.inr ⟨p, hp, .refl p, hn⟩))
      · split at hr
        · cases hr
        · rename_i s₁ hd
          injection hr with hr
          rw [← hr]
          by_cases hid : id = .app
          · refine .inr (.inr (.inl ?_))
            rw [hid, pkts_some hsp] at hp
            exact hp
          · refine .inr (.inr (.inr ⟨p, ?_, .refl p, hn⟩))
            unfold Sys.pkts
            simp only
            rw [(discardAll_spaces hd).1]
            unfold Sys.setSpace
            simp only
            rw [if_neg hid]
            exact hp
  | discard i now =>
    obtain ⟨r, hr, e1⟩ := map_eq_ok hs
    injection e1 with e1 e2
    subst e1 e2
    intro id p hp hn
    show _ ∨ _ ∨ p ∈ h.s.pkts i ∨ _
    by_cases hid : id = i
    · rw [hid] at hp; exact .inr (.inr (.inl hp))
    · refine .inr (.inr (.inr ⟨p, ?_, .refl p, hn⟩))
      unfold Sys.discardSpace at hr
      split at hr
      · cases hr
      · split at hr
        · cases hr
        · split at hr
          · cases hr
          · rename_i s₁ hd
            have e2 : r.spaces = s₁.spaces := by
              simp only at hr
              split at hr
              · have := confirm_spaces hr
                rw [this]
              · injection hr with hr; rw [← hr]
            unfold Sys.pkts
            rw [e2, (discardAll_spaces hd).1]
            unfold Sys.setSpace
            simp only
            rw [if_neg hid]
            exact hp
  | addPath rtt mtu =>
    injection hs with hs
    injection hs with e1 e2
    subst e1
    exact same _ rfl
  | migrate i =>
    injection hs with hs
    injection hs with e1 e2
    subst e1
    intro id p hp hn
    refine .inr (.inr (.inr ⟨{ p with primary := false }, ?_, ⟨rfl, rfl, rfl, rfl, rfl, rfl, rfl, fun _ => rfl, fun h => h⟩, hn⟩))
    rw [clearPrimary_pkts]
    refine List.mem_map.mpr ⟨p, ?_, rfl⟩
    unfold Sys.pkts
    rw [(switchPath_spaces h.s i).1]
    exact hp
  | peerMigrate i =>
    injection hs with hs
    injection hs with e1 e2
    subst e1
    refine same _ ?_
    funext j
    unfold Sys.pkts
    rw [(switchPath_spaces h.s i).1]
  | setMtu mtu =>
    injection hs with hs
    injection hs with e1 e2
    subst e1
    exact same _ rfl
  | setAckDelay d =>
    injection hs with hs
    injection hs with e1 e2
    subst e1
    exact same _ rfl
  | profile amp pace =>
    obtain ⟨r, hr, e1⟩ := map_eq_ok hs
    injection e1 with e1 e2
    subst e1
    refine same _ ?_
    funext j
    unfold Sys.pkts
    rw [sendProfile_spaces hr]

/-- What may have become of a packet that was sent. -/
def Resolved (h : Hist) (p : Pkt) : Prop :=
  p.key ∈ h.acked ∨ p.key ∈ h.lost ∨ p.key ∈ h.dropped ∨ h.s.spaces p.pt.space = none ∨ h.pending p

theorem Resolved.step (hi : Inv m h) (hl : Legal m h e) (hs : h.step e = .ok (h', o)) {p : Pkt} (hr : Resolved h p) : Resolved h' p := by
  obtain ⟨s', h1, rfl⟩ := Hist.step_ok hs
  have f := hi.facts hl h1
  rcases hr with hr | hr | hr | hr | ⟨q, hq, sq, hn⟩
  · exact .inl (List.mem_append_left _ hr)
  · exact .inr (.inl (List.mem_append_left _ hr))
  · exact .inr (.inr (.inl (List.mem_append_left _ hr)))
  · refine .inr (.inr (.inr (.inl ?_)))
    show s'.spaces p.pt.space = none
    cases hc : s'.spaces p.pt.space with
    | none => rfl
    | some sp' =>
      obtain ⟨sp, hsp, _⟩ := f.la _ sp' hc
      rw [hr] at hsp; cases hsp
  · rcases hi.fwd hl h1 _ q hq hn with ha | ⟨l, ha, ev⟩ | ha | ⟨r, ha, ev, hn'⟩
    · exact .inl (List.mem_append_right _ (List.mem_map.mpr ⟨q, ha, sq.key.symm⟩))
    · exact .inr (.inl (List.mem_append_right _ (List.mem_map.mpr ⟨l, ha, (sq.trans ev.same).key.symm⟩)))
    · exact .inr (.inr (.inl (List.mem_append_right _ (List.mem_map.mpr ⟨q, ha, sq.key.symm⟩))))
    · exact .inr (.inr (.inr (.inr ⟨r, ha, sq.trans ev.same, hn'⟩)))

theorem Reached.resolved (hr : Reached m h) : ∀ p ∈ h.sent, Resolved h p := by
  induction hr with
  | new _ _ => intro p hp; cases hp
  | @step h h' e o hr hl hs ih =>
    intro p hp
    have hi := hr.inv
    have hp' : p ∈ h.sent ++ e.pkt := by
      obtain ⟨s', _, rfl⟩ := Hist.step_ok hs
      exact hp
    rcases List.mem_append.mp hp' with hp | hp
    · exact (ih p hp).step hi hl hs
    · cases e with
      | send q on =>
        have hp : p ∈ [q] := hp
        rw [List.mem_singleton] at hp
        subst hp
        obtain ⟨s', h1, rfl⟩ := Hist.step_ok hs
        obtain ⟨r, hr', e1⟩ := map_eq_ok h1
        injection e1 with e1 e2
        subst e1 e2
        cases hsp : h.s.spaces p.pt.space with
        | none =>
          refine .inr (.inr (.inr (.inl ?_)))
          show r.spaces p.pt.space = none
          cases hc : r.spaces p.pt.space with
          | none => rfl
          | some sp' =>
            obtain ⟨sp, hx, _⟩ := onSent_frame hr' _ sp' hc
            rw [hsp] at hx; cases hx
        | some sp =>
          refine .inr (.inr (.inr (.inr ⟨sentPkt h.s p on, ?_, ⟨rfl, rfl, rfl, rfl, rfl, rfl⟩, rfl⟩)))
          show _ ∈ r.pkts p.pt.space
          rw [onSent_pkts hr', if_pos ⟨rfl, by rw [hsp]; simp⟩]
          exact List.mem_append_right _ (List.mem_singleton.mpr rfl)
      | _ => cases hp

end Neqo.Rec
