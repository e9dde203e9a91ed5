import Verif.Recovery.Timeout

/-! # What calls leave alone -/
namespace Neqo.Rec

/-- Spaces keep the largest number acknowledged and the time of the last ack-eliciting packet. -/
def Frame (s s' : Sys) : Prop :=
  ∀ id sp', s'.spaces id = some sp' → ∃ sp, s.spaces id = some sp ∧ sp'.largestAcked = sp.largestAcked ∧ sp'.lastEliciting = sp.lastEliciting

theorem Frame.of_spaces {s s' : Sys} (h : s'.spaces = s.spaces) : Frame s s' := fun id sp' hs => ⟨sp', by rw [← h]; exact hs, rfl, rfl⟩

theorem Frame.trans {a b c : Sys} (h : Frame a b) (k : Frame b c) : Frame a c := by
  intro id sp hs
  obtain ⟨x, h1, h2, h3⟩ := k id sp hs
  obtain ⟨y, h4, h5, h6⟩ := h id x h1
  exact ⟨y, h4, h2.trans h5, h3.trans h6⟩

theorem discardAll_spaces : ∀ {ps : List Pkt} {s s' : Sys} {now : Nat}, s.discardAll now ps = .ok s' → s'.spaces = s.spaces ∧ s'.pto = s.pto ∧ s'.confirmed = s.confirmed := by
  intro ps
  induction ps with
  | nil => intro s s' now h; unfold Sys.discardAll at h; injection h with h; rw [h]; exact ⟨rfl, rfl, rfl⟩
  | cons p ps ih =>
    intro s s' now h
    unfold Sys.discardAll at h
    cases hd : s.discardPacket p now with
    | error e => rw [hd] at h; cases h
    | ok s₁ =>
      rw [hd] at h
      obtain ⟨e1, e2, e3⟩ := ih h
      rw [e1, e2, e3]
      unfold Sys.discardPacket at hd
      cases hr : s.rtt.discarded p now with
      | error e => rw [hr] at hd; cases hd
      | ok rtt =>
        rw [hr] at hd
        simp only at hd
        cases hcc : s.cc.discard p with
        | error e => rw [hcc] at hd; cases hd
        | ok cc => rw [hcc] at hd; injection hd with hd; rw [← hd]; exact ⟨rfl, rfl, rfl⟩

theorem confirm_spaces {s s' : Sys} {now : Nat} (h : s.confirm now = .ok s') : s'.spaces = s.spaces := by
  unfold Sys.confirm at h
  cases hc : s.confirmed with
  | some t => rw [hc] at h; cases h
  | none =>
    rw [hc] at h
    simp only at h
    split at h
    · cases h
    · injection h with h; rw [← h]
    · split at h
      · unfold Sys.firePto at h
        simp only at h
        split at h
        · split at h <;> (injection h with h; rw [← h])
        · cases h
      · injection h with h; rw [← h]

theorem discardSpace_frame {s s' : Sys} {id : SpaceId} {now : Nat} (h : s.discardSpace id now = .ok s') : Frame s s' := by
  unfold Sys.discardSpace at h
  split at h
  · cases h
  · cases hs : s.spaces id with
    | none => rw [hs] at h; cases h
    | some sp =>
      rw [hs] at h
      simp only at h
      cases hd : (s.setSpace id none).discardAll now sp.pkts with
      | error e => rw [hd] at h; cases h
      | ok s₁ =>
        rw [hd] at h
        simp only at h
        have e1 := (discardAll_spaces hd).1
        have e2 : s'.spaces = s₁.spaces := by
          split at h
          · have := confirm_spaces h
            rw [this]
          · injection h with h; rw [← h]
        intro j sp' hj
        rw [e2, e1] at hj
        unfold Sys.setSpace at hj
        simp only at hj
        split at hj
        · cases hj
        · exact ⟨sp', hj, rfl, rfl⟩

theorem drop0rtt_frame {s : Sys} {now : Nat} {r} (h : s.drop0rtt now = .ok r) : Frame s r.1 := by
  unfold Sys.drop0rtt at h
  cases hs : s.spaces .app with
  | none => rw [hs] at h; injection h with h; rw [← h]; exact .of_spaces rfl
  | some sp =>
    rw [hs] at h
    simp only at h
    cases hla : sp.largestAcked with
    | some n => rw [hla] at h; injection h with h; rw [← h]; exact .of_spaces rfl
    | none =>
      rw [hla] at h
      simp only at h
      cases hd : (s.setSpace .app (some sp.ignored)).discardAll now sp.pkts with
      | error e => rw [hd] at h; cases h
      | ok s₁ =>
        rw [hd] at h
        injection h with h
        rw [← h]
        intro j sp' hj
        have hj : s₁.spaces j = some sp' := hj
        rw [(discardAll_spaces hd).1] at hj
        unfold Sys.setSpace at hj
        simp only at hj
        split at hj
        · rename_i hja
          injection hj with hj
          rw [← hj, hja]
          exact ⟨sp, hs, rfl, rfl⟩
        · exact ⟨sp', hj, rfl, rfl⟩

theorem retry_frame {s : Sys} {now : Nat} {r} (h : s.retry now = .ok r) : Frame s r.1 := by
  unfold Sys.retry at h
  simp only at h
  split at h
  · cases h
  · rename_i s₁ hd
    injection h with h
    rw [← h]
    intro j sp' hj
    have hj : s₁.spaces j = some sp' := hj
    rw [(discardAll_spaces hd).1] at hj
    simp only at hj
    cases hs : s.spaces j with
    | none => rw [hs] at hj; cases hj
    | some sp =>
      rw [hs] at hj
      injection hj with hj
      rw [← hj]
      exact ⟨sp, rfl, rfl, rfl⟩

theorem switchPath_spaces (s : Sys) (i : Nat) : (s.switchPath i).spaces = s.spaces ∧ (s.switchPath i).pto = s.pto := by
  unfold Sys.switchPath
  split <;> exact ⟨rfl, rfl⟩

theorem clearPrimary_frame (s : Sys) : Frame s s.clearPrimary := by
  intro j sp' hj
  unfold Sys.clearPrimary at hj
  simp only at hj
  cases hs : s.spaces j with
  | none => rw [hs] at hj; cases hj
  | some sp =>
    rw [hs] at hj
    injection hj with hj
    rw [← hj]
    exact ⟨sp, rfl, rfl, rfl⟩

theorem sendProfile_spaces {s : Sys} {amp : Nat} {pace : Bool} {r} (h : s.sendProfile amp pace = .ok r) : r.1.spaces = s.spaces := by
  unfold Sys.sendProfile at h
  simp only at h
  split at h
  · split at h
    · injection h with h; rw [← h]
    · cases h
  · split at h
    · split at h <;> (injection h with h; rw [← h])
    · split at h
      · split at h
        · injection h with h; rw [← h]
        · cases h
      · injection h with h; rw [← h]

theorem detectLost_frame {sp : Space} {now ld cd : Nat} {r} (h : sp.detectLost now ld cd = .ok r) : r.1.largestAcked = sp.largestAcked ∧ r.1.lastEliciting = sp.lastEliciting := by
  unfold Space.detectLost at h
  split at h
  · cases h
  · split at h
    · cases h
    · rename_i sp₁ hr
      have e : sp₁.largestAcked = sp.largestAcked ∧ sp₁.lastEliciting = sp.lastEliciting := by
        unfold Space.removeOutstanding at hr
        split at hr
        · injection hr with hr; rw [← hr]; exact ⟨rfl, rfl⟩
        · cases hr
      split at h
      · injection h with h; rw [← h]; exact e
      · injection h with h; rw [← h]; exact e

theorem newLargest_frame {s : Sys} {sp : Space} {top : Pkt} {b : Bool} {d now : Nat} {r} (h : s.newLargest sp top b d now = .ok r) :
    r.1.spaces = s.spaces ∧ r.2.lastEliciting = sp.lastEliciting := by
  unfold Sys.newLargest at h
  split at h
  · simp only at h
    split at h
    · split at h
      · cases h
      · rename_i s₁ hr
        injection h with h
        rw [← h]
        refine ⟨?_, rfl⟩
        unfold Sys.rttSample at hr
        simp only at hr
        split at hr
        · split at hr
          · cases hr
          · injection hr with hr; rw [← hr]
        · injection hr with hr; rw [← hr]
    · injection h with h; rw [← h]; exact ⟨rfl, rfl⟩
  · injection h with h; rw [← h]; exact ⟨rfl, rfl⟩

/-- ACK frames do not change when the last ack-eliciting packet was sent. -/
theorem onAck_times {s : Sys} {id : SpaceId} {rs : List (Nat × Nat)} {i : AckIn} {now : Nat} {r} (h : s.onAck id rs i now = .ok r) :
    ∀ j sp', r.1.spaces j = some sp' → ∃ sp, s.spaces j = some sp ∧ sp'.lastEliciting = sp.lastEliciting := by
  unfold Sys.onAck at h
  split at h
  · injection h with h; rw [← h]; exact fun j sp' hj => ⟨sp', hj, rfl⟩
  · rename_i sp hs
    have fin : ∀ (s₁ : Sys) (x : Space), s₁.spaces = s.spaces → x.lastEliciting = sp.lastEliciting →
        ∀ j sp', (if j = id then some x else s₁.spaces j) = some sp' → ∃ sp, s.spaces j = some sp ∧ sp'.lastEliciting = sp.lastEliciting := by
      intro s₁ x h1 h2 j sp' hj
      split at hj
      · rename_i hji
        injection hj with hj
        rw [← hj, hji]
        exact ⟨sp, hs, h2⟩
      · rw [h1] at hj
        exact ⟨sp', hj, rfl⟩
    split at h
    · cases h
    · split at h
      · cases h
      · rename_i sp₁ hr
        have e1 : sp₁.lastEliciting = sp.lastEliciting := by
          unfold Space.removeOutstanding at hr
          split at hr
          · injection hr with hr; rw [← hr]
          · cases hr
        split at h
        · cases h
        · split at h
          · injection h with h
            rw [← h]
            exact fin _ sp₁ rfl e1
          · unfold Sys.ackFound at h
            split at h
            · cases h
            · rename_i s₂ sp₂ hn
              obtain ⟨n1, n2⟩ := newLargest_frame hn
              split at h
              · cases h
              · rename_i sp₃ lost hd
                split at h
                · cases h
                · split at h
                  · cases h
                  · injection h with h
                    rw [← h]
                    exact fin s₂ sp₃ n1 ((detectLost_frame hd).2.trans (n2.trans e1))

theorem track_eq {ps r : List Pkt} {p : Pkt} (h : track ps p = .ok r) : r = ps ++ [p] := by
  unfold track at h
  split at h
  · injection h with h; exact h.symm
  · split at h
    · injection h with h; exact h.symm
    · cases h

/-- What sending does to the spaces. -/
theorem onSent_frame {s s' : Sys} {p : Pkt} {on : Option Nat} (h : s.onSent p on = .ok s') :
    ∀ j sp', s'.spaces j = some sp' → ∃ sp, s.spaces j = some sp ∧ sp'.largestAcked = sp.largestAcked ∧
      (if j = p.pt.space then sp'.pkts = sp.pkts ++ [sentPkt s p on] ∧
        sp'.lastEliciting = (if p.eliciting ∨ (sp.id ≠ .app ∧ sp.lastEliciting = none) then some p.sent else sp.lastEliciting)
       else sp' = sp) := by
  unfold Sys.onSent at h
  simp only at h
  split at h
  · rename_i hn
    injection h with h
    rw [← h]
    intro j sp' hj
    have hj : s.spaces j = some sp' := hj
    have hn : s.spaces p.pt.space = none := hn
    refine ⟨sp', hj, rfl, ?_⟩
    rw [if_neg (fun hc => by rw [hc, hn] at hj; cases hj)]
  · rename_i sp hsp
    have hsp : s.spaces p.pt.space = some sp := hsp
    split at h
    · cases h
    · rename_i sp₁ hs
      injection h with h
      intro j sp' hj
      have hps : s'.spaces = fun i => if i = p.pt.space then some sp₁ else s.spaces i := by
        rw [← h]
        unfold Sys.setSpace Sys.pathSent
        cases on <;> rfl
      rw [hps] at hj
      simp only at hj
      unfold Space.onSent at hs
      split at hj
      · rename_i hjp
        injection hj with hj
        refine ⟨sp, by rw [hjp]; exact hsp, ?_⟩
        rw [if_pos hjp]
        split at hs
        · cases hs
        · rename_i ps ht
          injection hs with hs
          rw [← hj, ← hs]
          refine ⟨rfl, ?_, rfl⟩
          exact track_eq ht
      · rename_i hjp
        exact ⟨sp', hj, rfl, by rw [if_neg hjp]⟩

end Neqo.Rec
