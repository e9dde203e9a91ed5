import Verif.Recovery.Resolve

/-! # C28, C29 and C52: packets, bytes in flight, and freedom from panics -/
namespace Neqo.Rec

variable {m : Nat} {h h' : Hist} {e : Ev} {o : Out}

theorem timeThreshold_eq (r : Rtt) : r.lossDelay = timeThreshold r := rfl

/-- An example: five packets are sent, the second is acknowledged, then the fifth, then the third late. -/
def exPkt (n t : Nat) : Pkt := { pt := .short, pn := n, eliciting := true, sent := t, len := 1000 }
def exRun : Option Hist :=
  Hist.run 1200 (.new 100 100000000 1200 .reno true)
    [.send (exPkt 0 0) none, .send (exPkt 1 10) none, .send (exPkt 2 20) none, .send (exPkt 3 30) none, .send (exPkt 4 40) none,
     .ack .app [(1, 1)] {} 50000000, .ack .app [(4, 4), (1, 1)] {} 50000001, .ack .app [(2, 2)] {} 50000002]

/-! ## C28 -/

/-- C28: every packet is returned as acknowledged at most once, and declared lost at most once. -/
theorem C28_at_most_once (hr : Reached m h) : h.acked.Nodup ∧ h.lost.Nodup := ⟨hr.inv.ackedNodup, hr.inv.lostNodup⟩

example : exRun.map (fun h => (h.acked, h.lost)) = some ([(.app, 1), (.app, 4), (.app, 2)], [(.app, 0)]) := by decide +kernel

/-- C28: the packets returned for an ACK frame are exactly the tracked ones in its ranges, and they are not
tracked any more. -/
theorem C28_acked_exactly (hr : Reached m h) {id : SpaceId} {rs : List (Nat × Nat)} {i : AckIn} {now : Nat} (hl : Legal m h (.ack id rs i now))
    (hs : h.step (.ack id rs i now) = .ok (h', o)) :
    (∀ p, p ∈ o.acked ↔ p ∈ h.tracked id ∧ InRanges rs p.pn) ∧ ∀ q ∈ h'.tracked id, ¬ InRanges rs q.pn := by
  obtain ⟨s', h1, rfl⟩ := Hist.step_ok hs
  have hi := hr.inv
  obtain ⟨s₁, lost, a1, a2, a3, a4, a5, a6⟩ := hi.core.onAck hi.stats (id := id) (i := i) hl.1 hl.2.1 hl.2.2
  obtain ⟨r, hr', e1⟩ := map_eq_ok h1
  rw [a1] at hr'
  injection hr' with hr'
  subst hr'
  injection e1 with e1 e2
  subst e1 e2
  have hin : ∀ p : Pkt, inRanges rs p = true ↔ InRanges rs p.pn := by
    intro p
    exact inRanges_iff
  have hA : ∀ p, p ∈ ackedPkts (h.s.pkts id) rs ↔ p ∈ h.tracked id ∧ InRanges rs p.pn := by
    intro p
    unfold ackedPkts
    rw [List.mem_reverse, List.mem_filter, hin]
    rfl
  refine ⟨hA, ?_⟩
  intro q hq hc
  have hq : q ∈ s₁.pkts id := hq
  rcases a4.evol id q hq with ⟨p, hp, ev⟩ | hge
  · have hpA : p ∈ ackedPkts (h.s.pkts id) rs := (hA p).mpr ⟨hp, by rw [← ev.pn]; exact hc⟩
    have hsp : p.pt.space = id := by
      cases hs : h.s.spaces id with
      | none => rw [pkts_none hs] at hp; cases hp
      | some x => rw [pkts_some hs] at hp; exact (hi.core.sp id x hs).pt p hp
    exact (a4.acked p hpA).2 q (by rw [hsp]; exact hq) ev.pn
  · exact absurd (a2.below id q hq) (by omega)

/-- C28: what is returned as acknowledged, lost or for probing is a packet that was sent, has not been
acknowledged before and, unless it is being acknowledged, has not been declared lost before. -/
theorem C28_only_sent (hr : Reached m h) (hl : Legal m h e) (hs : h.step e = .ok (h', o)) :
    (∀ a ∈ o.acked, (∃ p ∈ h.sent, SamePkt p a) ∧ a.key ∉ h.acked) ∧
    (∀ l ∈ o.lost ++ o.probes, (∃ p ∈ h.sent, p.key = l.key) ∧ l.key ∉ h.acked ∧ l.key ∉ h.lost) := by
  obtain ⟨s', h1, rfl⟩ := Hist.step_ok hs
  have hi := hr.inv
  have f := hi.facts hl h1
  have pending : ∀ (l p : Pkt), p ∈ h.s.pkts l.pt.space → p.pn = l.pn → p.lost = none →
      (∃ p ∈ h.sent, p.key = l.key) ∧ l.key ∉ h.acked ∧ l.key ∉ h.lost := by
    intro l p hp e hn
    refine ⟨?_, fun hc => hi.acked _ hc p hp e, fun hc => hi.lost _ hc p hp e hn⟩
    obtain ⟨r, hr, sr⟩ := hi.tracked _ p hp
    refine ⟨r, hr, ?_⟩
    have hsp : p.pt.space = l.pt.space := by
      cases hs : h.s.spaces l.pt.space with
      | none => rw [pkts_none hs] at hp; cases hp
      | some x => rw [pkts_some hs] at hp; exact (hi.core.sp _ x hs).pt p hp
    rw [sr.key]
    unfold Pkt.key
    rw [hsp, e]
  constructor
  · intro a ha
    obtain ⟨h2, _⟩ := f.moves.acked a ha
    exact ⟨hi.tracked _ a h2, fun hc => hi.acked _ hc a h2 rfl⟩
  · intro l hl'
    rcases List.mem_append.mp hl' with hl' | hl'
    · obtain ⟨⟨p, hp, e, hn⟩, _⟩ := f.moves.lost l hl'
      exact pending l p hp e hn
    · obtain ⟨⟨p, hp, e, _, hn⟩, _⟩ := f.moves.probes l hl'
      exact pending l p hp e hn

theorem Overdue.of {n now : Nat} {r : Rtt} {p : Pkt} (h : LossDue n now r.lossDelay p) : Overdue r now n p := by
  unfold LossDue at h
  refine ⟨h.1, ?_⟩
  rw [← timeThreshold_eq]
  rcases h.2 with h | h
  · exact .inr h
  · exact .inl h

theorem Overdue.due {n now : Nat} {r : Rtt} {p : Pkt} (h : Overdue r now n p) : LossDue n now r.lossDelay p := by
  refine ⟨h.1, ?_⟩
  rw [timeThreshold_eq]
  rcases h.2 with h | h
  · exact .inr h
  · exact .inl h

/-- C28: a packet is declared lost only if a later one in its space has been acknowledged that was sent at least
three packets later, or if it was sent longer ago than the time threshold. -/
theorem C28_lost_only_if (hr : Reached m h) (hl : Legal m h e) (hs : h.step e = .ok (h', o)) :
    ∀ l ∈ o.lost, ∃ n, (l.pt.space, n) ∈ h'.acked ∧ Overdue h'.s.rtt h'.clock n l := by
  obtain ⟨s', h1, rfl⟩ := Hist.step_ok hs
  have hi := hr.inv
  have hi' := hi.next hl (hi.facts hl h1)
  intro l hlo
  cases e with
  | ack id rs i now =>
    obtain ⟨s₁, lost, a1, a2, a3, a4, a5, a6⟩ := hi.core.onAck hi.stats (id := id) (i := i) hl.1 hl.2.1 hl.2.2
    obtain ⟨r, hr', e1⟩ := map_eq_ok h1
    rw [a1] at hr'
    injection hr' with hr'
    subst hr'
    injection e1 with e1 e2
    subst e1 e2
    have hlo : l ∈ lost := hlo
    cases hack : ackedPkts (h.s.pkts id) rs with
    | nil => rw [(a6 hack).1] at hlo; cases hlo
    | cons top rest =>
      cases hsp : h.s.spaces id with
      | none => rw [pkts_none hsp] at hack; cases hack
      | some sp =>
        have hack₀ := hack
        rw [pkts_some hsp] at hack
        obtain ⟨ld, cd, sp', q1, q2, q3, q4, q5, q6, q7⟩ := a5 sp top rest hsp hack
        have htop : top ∈ sp.pkts := by
          have : top ∈ ackedPkts sp.pkts rs := by rw [hack]; exact List.mem_cons_self
          unfold ackedPkts at this
          exact (List.mem_filter.mp (List.mem_reverse.mp this)).1
        rw [q4] at hlo
        obtain ⟨e3, n, e4, e5⟩ := detectedLost_due ((hi.core.sp id sp hsp).acked rs htop).1 l hlo
        refine ⟨n, ?_, .of (by rw [← q2]; exact e5)⟩
        have hmem := (hi'.la id sp' q1).1 n (by rw [q5]; exact e4)
        change (id, n) ∈ h.acked ++ (ackedPkts (h.s.pkts id) rs).map Pkt.key at hmem
        rw [hack₀] at hmem
        rw [e3]
        exact hmem
  | timeout now hk =>
    obtain ⟨r, hr', e1⟩ := map_eq_ok h1
    obtain ⟨sm, g1, g2, g3, g4, g5⟩ := hi.core.onTimeout_out hi.stats hl hr'
    injection e1 with e1 e2
    subst e1 e2
    obtain ⟨sp, n, e1, e2, e3⟩ := g3.due l hlo
    refine ⟨n, List.mem_append_left _ ((hi.la _ sp e1).1 n e2), .of ?_⟩
    show LossDue n now r.1.rtt.lossDelay l
    rw [g4.rtt, g3.rtt]
    exact e3
  | send p on =>
    obtain ⟨r, _, e1⟩ := map_eq_ok h1
    injection e1 with e1 e2
    subst e2
    cases hlo
  | retry now =>
    obtain ⟨r, _, e1⟩ := map_eq_ok h1
    injection e1 with e1 e2
    subst e2
    cases hlo
  | drop0rtt now =>
    obtain ⟨r, _, e1⟩ := map_eq_ok h1
    injection e1 with e1 e2
    subst e2
    cases hlo
  | discard id now =>
    obtain ⟨r, _, e1⟩ := map_eq_ok h1
    injection e1 with e1 e2
    subst e2
    cases hlo
  | profile amp pace =>
    obtain ⟨r, _, e1⟩ := map_eq_ok h1
    injection e1 with e1 e2
    subst e2
    cases hlo
  | _ =>
    injection h1 with h1
    injection h1 with _ e2
    subst e2
    cases hlo

/-- C28: after a timeout, and after an ACK frame that acknowledges something in a space, no packet is tracked in
that space as not lost although it should be considered lost. -/
theorem C28_lost_complete (hr : Reached m h) (hl : Legal m h e) (hs : h.step e = .ok (h', o)) {id : SpaceId}
    (he : (∃ now k, e = .timeout now k) ∨ ∃ a ∈ o.acked, a.pt.space = id) :
    ∀ q ∈ h'.tracked id, q.lost = none → ∀ n, (id, n) ∈ h'.acked → ¬ Overdue h'.s.rtt h'.clock n q := by
  obtain ⟨s', h1, rfl⟩ := Hist.step_ok hs
  have hi := hr.inv
  have hi' := hi.next hl (hi.facts hl h1)
  -- it is enough that the space was checked
  have fin : ∀ sp', s'.spaces id = some sp' → Checked (e.now h.clock) s'.rtt.lossDelay sp' →
      ∀ q ∈ s'.pkts id, q.lost = none → ∀ n, (id, n) ∈ h.acked ++ o.acked.map Pkt.key → ¬ Overdue s'.rtt (e.now h.clock) n q := by
    intro sp' hsp hck q hq hn n hna hod
    rw [pkts_some hsp] at hq
    obtain ⟨k, hk, hle⟩ := (hi'.la id sp' hsp).2 n hna
    refine hck q hq hn ?_
    have := hod.due
    rw [hk]
    unfold LossDue at *
    show q.pn < k ∧ (_ ∨ q.pn + packetThreshold ≤ k)
    omega
  intro q hq hn n hna
  have hq : q ∈ s'.pkts id := hq
  cases hsp : s'.spaces id with
  | none => rw [pkts_none hsp] at hq; cases hq
  | some sp' =>
    refine fin sp' hsp ?_ q hq hn n hna
    cases e with
    | ack j rs i now =>
      obtain ⟨s₁, lost, a1, a2, a3, a4, a5, a6⟩ := hi.core.onAck hi.stats (id := j) (i := i) hl.1 hl.2.1 hl.2.2
      obtain ⟨r, hr', e1⟩ := map_eq_ok h1
      rw [a1] at hr'
      injection hr' with hr'
      subst hr'
      injection e1 with e1 e2
      subst e1 e2
      rcases he with ⟨_, _, he⟩ | ⟨a, ha, he⟩
      · cases he
      · have ha2 : a ∈ ackedPkts (h.s.pkts j) rs := ha
        cases hsj : h.s.spaces j with
        | none => rw [pkts_none hsj] at ha2; cases ha2
        | some sp =>
          rw [pkts_some hsj] at ha2
          have hmem := (List.mem_filter.mp (List.mem_reverse.mp ha2)).1
          have hj : id = j := he.symm.trans ((hi.core.sp j sp hsj).pt a hmem)
          subst hj
          cases hack : ackedPkts sp.pkts rs with
          | nil => rw [hack] at ha2; cases ha2
          | cons top rest =>
            obtain ⟨ld, cd, sp₂, q1, q2, q3, q4, q5, q6, q7⟩ := a5 sp top rest hsj hack
            have hsp : s₁.spaces id = some sp' := hsp
            rw [hsp] at q1
            injection q1 with q1
            subst q1
            have := Checked.detect q3 q5
            rw [q2] at this
            exact this
    | timeout now hk =>
      obtain ⟨r, hr', e1⟩ := map_eq_ok h1
      obtain ⟨sm, g1, g2, g3, g4, g5⟩ := hi.core.onTimeout_out hi.stats hl hr'
      injection e1 with e1 e2
      subst e1 e2
      intro q hq hn hd
      have hla := g4.la id
      rw [hsp] at hla
      cases hsm : sm.spaces id with
      | none => rw [hsm] at hla; cases hla
      | some spm =>
        rw [hsm] at hla
        simp only [Option.map_some, Option.some.injEq] at hla
        have hck := g3.checked id (mem_allSpaces id) spm hsm
        -- the packet was tracked before the probe timer was checked
        have hpk : q ∈ r.1.pkts id := by rw [pkts_some hsp]; exact hq
        rcases g5.evol id q hpk with ⟨p, hp, ev⟩ | hge
        · rw [pkts_some hsm] at hp
          refine hck p hp ?_ ?_
          · cases hpl : p.lost with
            | none => rfl
            | some t => rw [ev.lost (by rw [hpl]; simp), hpl] at hn; cases hn
          · rw [← hla]
            rw [g4.rtt, g3.rtt] at hd
            unfold LossDue at *
            rw [← ev.pn, ← ev.sent]
            exact hd
        · exact absurd (hi'.core.below id q hpk) (by show ¬ _ < h.next id; omega)
    | send p on =>
      obtain ⟨r, _, e1⟩ := map_eq_ok h1
      injection e1 with e1 e2
      subst e2
      rcases he with ⟨_, _, he⟩ | ⟨_, ha, _⟩
      · cases he
      · cases ha
    | retry now =>
      obtain ⟨r, _, e1⟩ := map_eq_ok h1
      injection e1 with e1 e2
      subst e2
      rcases he with ⟨_, _, he⟩ | ⟨_, ha, _⟩
      · cases he
      · cases ha
    | drop0rtt now =>
      obtain ⟨r, _, e1⟩ := map_eq_ok h1
      injection e1 with e1 e2
      subst e2
      rcases he with ⟨_, _, he⟩ | ⟨_, ha, _⟩
      · cases he
      · cases ha
    | discard id now =>
      obtain ⟨r, _, e1⟩ := map_eq_ok h1
      injection e1 with e1 e2
      subst e2
      rcases he with ⟨_, _, he⟩ | ⟨_, ha, _⟩
      · cases he
      · cases ha
    | profile amp pace =>
      obtain ⟨r, _, e1⟩ := map_eq_ok h1
      injection e1 with e1 e2
      subst e2
      rcases he with ⟨_, _, he⟩ | ⟨_, ha, _⟩
      · cases he
      · cases ha
    | _ =>
      injection h1 with h1
      injection h1 with _ e2
      subst e2
      rcases he with ⟨_, _, he⟩ | ⟨_, ha, _⟩
      · cases he
      · cases ha

/-- C28: no packet is forgotten.  Every packet that was sent has been acknowledged, or declared lost, or dropped with its
keys, or is still tracked as not lost. -/
theorem C28_none_forgotten (hr : Reached m h) : ∀ p ∈ h.sent,
    p.key ∈ h.acked ∨ p.key ∈ h.lost ∨ p.key ∈ h.dropped ∨ h.s.spaces p.pt.space = none ∨ h.pending p := hr.resolved

/-- C28: packets reported as dropped were tracked until then, and nothing in their space is tracked any more. -/
theorem C28_dropped_gone (hs : h.step e = .ok (h', o)) :
    ∀ p ∈ o.dropped, ∃ id, p ∈ h.tracked id ∧ h'.tracked id = [] := by
  obtain ⟨s', h1, rfl⟩ := Hist.step_ok hs
  intro p hp
  show ∃ id, p ∈ h.s.pkts id ∧ s'.pkts id = []
  cases e with
  | retry now =>
    obtain ⟨r, hr, e1⟩ := map_eq_ok h1
    injection e1 with e1 e2
    subst e1 e2
    unfold Sys.retry at hr
    simp only at hr
    split at hr
    · cases hr
    · rename_i s₁ hd
      injection hr with hr
      subst hr
      have hp' : p ∈ h.s.pkts .initial ++ h.s.pkts .handshake ++ h.s.pkts .app := hp
      have hnil : ∀ id, s₁.pkts id = [] := by
        intro id
        unfold Sys.pkts
        rw [(discardAll_spaces hd).1]
        simp only
        cases h.s.spaces id <;> rfl
      simp only [List.mem_append] at hp'
      rcases hp' with (hp' | hp') | hp'
      · exact ⟨_, hp', hnil _⟩
      · exact ⟨_, hp', hnil _⟩
      · exact ⟨_, hp', hnil _⟩
  | drop0rtt now =>
    obtain ⟨r, hr, e1⟩ := map_eq_ok h1
    injection e1 with e1 e2
    subst e1 e2
    unfold Sys.drop0rtt at hr
    split at hr
    · injection hr with hr; subst hr; cases hp
    · rename_i sp hsp
      split at hr
      · injection hr with hr; subst hr; cases hp
      · split at hr
        · cases hr
        · rename_i s₁ hd
          injection hr with hr
          subst hr
          refine ⟨.app, by rw [pkts_some hsp]; exact hp, ?_⟩
          unfold Sys.pkts
          simp only
          rw [(discardAll_spaces hd).1]
          unfold Sys.setSpace
          simp only
          rw [if_pos trivial]
          rfl
  | discard i now =>
    obtain ⟨r, hr, e1⟩ := map_eq_ok h1
    injection e1 with e1 e2
    subst e1 e2
    refine ⟨i, hp, ?_⟩
    unfold Sys.discardSpace at hr
    split at hr
    · cases hr
    · split at hr
      · cases hr
      · split at hr
        · cases hr
        · rename_i s₁ hd
          have e2 : r.spaces = s₁.spaces := by
            simp only at hr
            split at hr
            · have := confirm_spaces hr
              rw [this]
            · injection hr with hr; rw [← hr]
          unfold Sys.pkts
          rw [e2, (discardAll_spaces hd).1]
          unfold Sys.setSpace
          simp only
          rw [if_pos trivial]
  | _ =>
    first
    | (obtain ⟨r, hr, e1⟩ := map_eq_ok h1
       injection e1 with e1 e2
       subst e1 e2
       cases hp)
    | (injection h1 with h1
       injection h1 with e1 e2
       subst e2
       cases hp)

example : (exRun.bind fun h => match h.step (.retry 50000003) with
    | .ok (h', o) => some (o.dropped.map Pkt.pn, (h'.tracked .app).map Pkt.pn)
    | .error _ => none) = some ([0, 3], []) := by decide +kernel

example : exRun.map (fun h => (h.tracked .app).map (fun p => (p.pn, p.lost.isSome))) = some [(0, true), (3, false)] := by decide +kernel
example : ∃ h, Reached 1200 h ∧ h.acked = [(.app, 1), (.app, 4), (.app, 2)] ∧ h.lost = [(.app, 0)] := by
  have : exRun.isSome = true := by decide +kernel
  obtain ⟨h, hh⟩ := Option.isSome_iff_exists.mp this
  have e1 : exRun.map (fun h => (h.acked, h.lost)) = some ([(.app, 1), (.app, 4), (.app, 2)], [(.app, 0)]) := by decide +kernel
  rw [hh] at e1
  injection e1 with e1
  injection e1 with e1 e2
  exact ⟨h, Reached.run (.new (by decide) (by decide)) hh, e1, e2⟩

end Neqo.Rec
