import Verif.Recovery.PropsPto

/-!
# When loss recovery wants to be called

`next_timeout` of `neqo-transport/src/recovery/mod.rs`, and what is known about the time that the loss timer is
based on.
-/
namespace Neqo.Rec

/-- `earliest_loss_time` (recovery/mod.rs:821-827). -/
def Sys.lossTime (s : Sys) : Option Nat :=
  (allSpaces.filterMap fun i => (s.spaces i).bind (·.firstOoo)).min?.map (· + s.rtt.lossDelay)

/-- The earlier of two times that may be missing. -/
def earlier (a b : Option Nat) : Option Nat :=
  match a, b with
  | some a, some b => some (min a b)
  | some a, none => some a
  | none, b => b

/-- `earliest_pto` (recovery/mod.rs:872-882). -/
def Sys.probeTime (s : Sys) : Except Err (Option Nat) :=
  match s.confirmed with
  | some _ => s.ptoTime .app
  | none =>
    match s.ptoTime .initial with
    | .error e => .error e
    | .ok a =>
      match s.ptoTime .handshake with
      | .error e => .error e
      | .ok b => .ok (earlier a b)

/-- `next_timeout` (recovery/mod.rs:784-799).  `possible` is the path's `pto_possible` (path.rs:1129-1132). -/
def Sys.nextTimeout (s : Sys) (possible : Bool) : Except Err (Option Nat) :=
  if possible then
    match s.probeTime with
    | .error e => .error e
    | .ok t => .ok (earlier s.lossTime t)
  else .ok s.lossTime

variable {m : Nat} {h h' : Hist} {e : Ev} {o : Out}

/-- What is known of the time the first packet that may be lost was sent. -/
def OooOK (sp : Space) : Prop :=
  ∀ n, sp.largestAcked = some n → ∀ p ∈ sp.pkts, p.lost = none → p.pn < n → ∃ t, sp.firstOoo = some t ∧ t ≤ p.sent ∧ n < p.pn + 3

/-- After looking for losses, the time is also in the future. -/
def Fresh (now ld : Nat) (sp : Space) : Prop := OooOK sp ∧ ∀ t, sp.firstOoo = some t → now < t + ld

theorem OooOK.of {sp sp' : Space} (h : OooOK sp) (h1 : sp'.largestAcked = sp.largestAcked) (h2 : sp'.firstOoo = sp.firstOoo)
    (h3 : ∀ q ∈ sp'.pkts, q.lost = none → (∃ p ∈ sp.pkts, q.pn = p.pn ∧ q.sent = p.sent ∧ p.lost = none) ∨ (∀ n, sp.largestAcked = some n → n ≤ q.pn)) : OooOK sp' := by
  intro n hn q hq hl hlt
  rw [h1] at hn
  rcases h3 q hq hl with ⟨p, hp, e1, e2, e3⟩ | hge
  · obtain ⟨t, a, b, c⟩ := h n hn p hp e3 (by omega)
    exact ⟨t, by rw [h2, a], by omega, by omega⟩
  · exact absurd (hge n hn) (by omega)

theorem declareLost_fresh (la now d : Nat) : ∀ {ps : List Pkt}, Sorted ps → Timed ps →
    (∀ t, (declareLost la now d ps).2.2 = some t → now < t + d) ∧
    ∀ p ∈ (declareLost la now d ps).1, p.lost = none → p.pn < la → ∃ t, (declareLost la now d ps).2.2 = some t ∧ t ≤ p.sent ∧ la < p.pn + 3 := by
  intro ps
  induction ps with
  | nil => intro _ _; exact ⟨(fun t h => by cases h), (fun p hp => by cases hp)⟩
  | cons p ps ih =>
    intro hs ht
    obtain ⟨hs1, hs2⟩ := List.pairwise_cons.mp hs
    obtain ⟨ht1, ht2⟩ := List.pairwise_cons.mp ht
    obtain ⟨i1, i2⟩ := ih hs2 ht2
    unfold declareLost
    by_cases h1 : p.pn < la
    · rw [if_pos h1]
      by_cases h2 : p.sent + d ≤ now ∨ p.pn + packetThreshold ≤ la
      · rw [if_pos h2]
        dsimp only
        cases hl : p.lost with
        | some u =>
          refine ⟨i1, fun q hq hql hlt => ?_⟩
          rcases List.mem_cons.mp hq with rfl | hq
          · rw [hl] at hql; cases hql
          · exact i2 q hq hql hlt
        | none =>
          refine ⟨i1, fun q hq hql hlt => ?_⟩
          rcases List.mem_cons.mp hq with rfl | hq
          · cases hql
          · exact i2 q hq hql hlt
      · rw [if_neg h2]
        have h3 : now < p.sent + d ∧ la < p.pn + 3 := by unfold packetThreshold at h2; omega
        refine ⟨fun t htt => by injection htt with htt; omega, fun q hq hql hlt => ⟨p.sent, rfl, ?_⟩⟩
        rcases List.mem_cons.mp hq with rfl | hq
        · exact ⟨Nat.le_refl _, h3.2⟩
        · have := hs1 q hq
          exact ⟨ht1 q hq, by omega⟩
    · rw [if_neg h1]
      refine ⟨(fun t htt => by cases htt), fun q hq hql hlt => ?_⟩
      rcases List.mem_cons.mp hq with rfl | hq
      · exact absurd hlt h1
      · have := hs1 q hq
        omega

theorem declareLost_none (la now d : Nat) : ∀ {ps : List Pkt}, (∀ p ∈ ps, p.lost = none → p.pn < la → now < p.sent + d ∧ la < p.pn + 3) →
    (declareLost la now d ps).2.1 = [] := by
  intro ps
  induction ps with
  | nil => intro _; rfl
  | cons p ps ih =>
    intro h
    have i := ih fun q hq => h q (List.mem_cons_of_mem _ hq)
    unfold declareLost
    by_cases h1 : p.pn < la
    · rw [if_pos h1]
      by_cases h2 : p.sent + d ≤ now ∨ p.pn + packetThreshold ≤ la
      · rw [if_pos h2]
        dsimp only
        cases hl : p.lost with
        | some u => exact i
        | none =>
          have := h p List.mem_cons_self hl h1
          unfold packetThreshold at h2
          omega
      · rw [if_neg h2]
    · rw [if_neg h1]

theorem detectLost_fresh {sp sp' : Space} {now ld cd : Nat} {lost : List Pkt} (hs : Sorted sp.pkts) (ht : Timed sp.pkts) (hf : LostFirst sp.pkts)
    (h : sp.detectLost now ld cd = .ok (sp', lost)) : Fresh now ld sp' := by
  unfold Space.detectLost at h
  rw [removeExpired_ok hf] at h
  dsimp only at h
  unfold Space.removeOutstanding at h
  split at h
  · cases h
  · rename_i s1 h1
    split at h1
    · injection h1 with h1
      subst h1
      dsimp only at h
      cases hla : sp.largestAcked with
      | none =>
        rw [hla] at h
        injection h with h
        injection h with h _
        subst h
        exact ⟨(fun n hn => by cases hn), (fun t htt => by cases htt)⟩
      | some la =>
        rw [hla] at h
        dsimp only at h
        injection h with h
        injection h with h _
        obtain ⟨a, b⟩ := declareLost_fresh la now ld (ps := sp.pkts.filter fun p => !p.expired now cd) (hs.filter _) (List.Pairwise.filter _ ht)
        generalize declareLost la now ld (sp.pkts.filter fun p => !p.expired now cd) = r at *
        subst h
        refine ⟨fun n hn p hp hl hlt => ?_, fun t htt => a t htt⟩
        injection hn with hn
        subst hn
        exact b p hp hl hlt
    · cases h1

/-- Nothing is declared lost before the time threshold of a packet has passed. -/
theorem detectLost_none {sp sp' : Space} {now ld cd : Nat} {lost : List Pkt} (hf : LostFirst sp.pkts) (hok : OooOK sp)
    (ht : ∀ t, sp.firstOoo = some t → now < t + ld) (h : sp.detectLost now ld cd = .ok (sp', lost)) : lost = [] := by
  unfold Space.detectLost at h
  rw [removeExpired_ok hf] at h
  dsimp only at h
  unfold Space.removeOutstanding at h
  split at h
  · cases h
  · rename_i s1 h1
    split at h1
    · injection h1 with h1
      subst h1
      dsimp only at h
      cases hla : sp.largestAcked with
      | none =>
        rw [hla] at h
        injection h with h
        injection h with _ h
        exact h.symm
      | some la =>
        rw [hla] at h
        dsimp only at h
        injection h with h
        injection h with _ h
        rw [← h]
        refine declareLost_none la now ld fun p hp hl hlt => ?_
        obtain ⟨t, a, b, c⟩ := hok la hla p (List.mem_filter.mp hp).1 hl hlt
        have := ht t a
        exact ⟨by omega, c⟩
    · cases h1

/-- What holds of the spaces. -/
def OInv (s : Sys) : Prop := ∀ id sp, s.spaces id = some sp → OooOK sp

theorem OInv.set {s : Sys} (h : OInv s) {id : SpaceId} {x : Space} (hx : OooOK x) : OInv (s.setSpace id (some x)) := by
  intro j sp hj
  unfold Sys.setSpace at hj
  dsimp only at hj
  split at hj
  · injection hj with hj; rw [← hj]; exact hx
  · exact h j sp hj

theorem OInv.spaces {s s' : Sys} (h : OInv s) (e : s'.spaces = s.spaces) : OInv s' := fun j sp hj => h j sp (by rw [← e]; exact hj)

theorem timeoutSpace_out {s s' : Sys} {now : Nat} {id : SpaceId} {lost : List Pkt} (h : s.timeoutSpace now id = .ok (s', lost)) :
    s'.rtt = s.rtt ∧ (∀ j, j ≠ id → s'.spaces j = s.spaces j) ∧
    ((s.spaces id = none ∧ s' = s ∧ lost = []) ∨
      ∃ sp sp' cd, s.spaces id = some sp ∧ s'.spaces id = some sp' ∧ sp.detectLost now s.rtt.lossDelay cd = .ok (sp', lost)) := by
  unfold Sys.timeoutSpace at h
  split at h
  · rename_i hn
    injection h with h
    injection h with h1 h2
    subst h1 h2
    exact ⟨rfl, fun _ _ => rfl, .inl ⟨hn, rfl, rfl⟩⟩
  · rename_i sp hsp
    split at h
    · cases h
    · rename_i sp' l hd
      split at h
      · cases h
      · rename_i cc hcc
        injection h with h
        injection h with h1 h2
        subst h1 h2
        refine ⟨rfl, fun j hj => ?_, .inr ⟨sp, sp', _, hsp, ?_, hd⟩⟩
        · unfold Sys.setSpace; dsimp only; rw [if_neg hj]
        · unfold Sys.setSpace; dsimp only; rw [if_pos rfl]

theorem timeoutSpaces_out {now : Nat} : ∀ {ids : List SpaceId} {s s' : Sys} {lost : List Pkt}, ids.Nodup → s.timeoutSpaces now ids = .ok (s', lost) →
    s'.rtt = s.rtt ∧ (∀ j, j ∉ ids → s'.spaces j = s.spaces j) ∧
    (∀ id ∈ ids, ∀ sp', s'.spaces id = some sp' → ∃ sp cd l, s.spaces id = some sp ∧ sp.detectLost now s.rtt.lossDelay cd = .ok (sp', l)) ∧
    ((∀ id ∈ ids, ∀ sp sp' cd l, s.spaces id = some sp → sp.detectLost now s.rtt.lossDelay cd = .ok (sp', l) → l = []) → lost = []) := by
  intro ids
  induction ids with
  | nil =>
    intro s s' lost _ h
    unfold Sys.timeoutSpaces at h
    injection h with h
    injection h with h1 h2
    subst h1 h2
    exact ⟨rfl, fun _ _ => rfl, (fun _ h => by cases h), fun _ => rfl⟩
  | cons id ids ih =>
    intro s s' lost hn h
    obtain ⟨hn1, hn2⟩ := List.nodup_cons.mp hn
    unfold Sys.timeoutSpaces at h
    split at h
    · cases h
    · rename_i s1 l1 hs1
      split at h
      · cases h
      · rename_i s2 l2 hs2
        injection h with h
        injection h with h1 h2
        subst h1 h2
        obtain ⟨a1, a2, a3⟩ := timeoutSpace_out hs1
        obtain ⟨b1, b2, b3, b4⟩ := ih hn2 hs2
        have hother : ∀ j ∈ ids, s1.spaces j = s.spaces j := fun j hj => a2 j fun hc => hn1 (hc ▸ hj)
        refine ⟨b1.trans a1, fun j hj => ?_, fun j hj sp' hsp' => ?_, fun hall => ?_⟩
        · rw [b2 j fun hc => hj (List.mem_cons_of_mem _ hc), a2 j fun hc => hj (hc ▸ List.mem_cons_self)]
        · rcases List.mem_cons.mp hj with rfl | hj
          · rw [b2 j hn1] at hsp'
            rcases a3 with ⟨c1, c2, _⟩ | ⟨sp, sp1, cd, c1, c2, c3⟩
            · rw [c2, c1] at hsp'; cases hsp'
            · rw [c2] at hsp'
              injection hsp' with hsp'
              subst hsp'
              exact ⟨sp, cd, l1, c1, c3⟩
          · obtain ⟨sp, cd, l, c1, c2⟩ := b3 j hj sp' hsp'
            rw [hother j hj] at c1
            rw [a1] at c2
            exact ⟨sp, cd, l, c1, c2⟩
        · have e2 : l2 = [] := b4 fun j hj sp sp' cd l c1 c2 => by
            rw [hother j hj] at c1
            rw [a1] at c2
            exact hall j (List.mem_cons_of_mem _ hj) sp sp' cd l c1 c2
          have e1 : l1 = [] := by
            rcases a3 with ⟨_, _, c⟩ | ⟨sp, sp1, cd, c1, _, c3⟩
            · exact c
            · exact hall id List.mem_cons_self sp sp1 cd l1 c1 c3
          rw [e1, e2]
          rfl

/-- Two spaces agree on what the loss timer depends on. -/
structure SameOoo (sp sp' : Space) : Prop where
  la : sp'.largestAcked = sp.largestAcked
  ooo : sp'.firstOoo = sp.firstOoo
  pkts : ∀ q ∈ sp'.pkts, q.lost = none → ∃ p ∈ sp.pkts, q.pn = p.pn ∧ q.sent = p.sent ∧ p.lost = none

theorem SameOoo.refl (sp : Space) : SameOoo sp sp := ⟨rfl, rfl, fun q hq hl => ⟨q, hq, rfl, rfl, hl⟩⟩

theorem SameOoo.trans {a b c : Space} (x : SameOoo a b) (y : SameOoo b c) : SameOoo a c :=
  ⟨y.la.trans x.la, y.ooo.trans x.ooo, fun q hq hl => by
    obtain ⟨p, hp, e1, e2, e3⟩ := y.pkts q hq hl
    obtain ⟨r, hr, f1, f2, f3⟩ := x.pkts p hp e3
    exact ⟨r, hr, e1.trans f1, e2.trans f2, f3⟩⟩

theorem SameOoo.ok {a b : Space} (x : SameOoo a b) (h : OooOK a) : OooOK b := h.of x.la x.ooo fun q hq hl => .inl (x.pkts q hq hl)

theorem SameOoo.fresh {a b : Space} {now ld : Nat} (x : SameOoo a b) (h : Fresh now ld a) : Fresh now ld b :=
  ⟨x.ok h.1, fun t ht => h.2 t (by rw [← x.ooo]; exact ht)⟩

/-- The spaces of two states agree on it. -/
def SameAll (s s' : Sys) : Prop := ∀ id sp', s'.spaces id = some sp' → ∃ sp, s.spaces id = some sp ∧ SameOoo sp sp'

theorem SameAll.refl {s s' : Sys} (h : s'.spaces = s.spaces) : SameAll s s' := fun id sp' hs => ⟨sp', by rw [← h]; exact hs, .refl _⟩

theorem SameAll.trans {a b c : Sys} (x : SameAll a b) (y : SameAll b c) : SameAll a c := by
  intro id sp hs
  obtain ⟨sp1, h1, r1⟩ := y id sp hs
  obtain ⟨sp2, h2, r2⟩ := x id sp1 h1
  exact ⟨sp2, h2, r2.trans r1⟩

theorem SameAll.inv {a b : Sys} (x : SameAll a b) (h : OInv a) : OInv b := by
  intro id sp hs
  obtain ⟨sp1, h1, r⟩ := x id sp hs
  exact r.ok (h id sp1 h1)

theorem ptoTake_same (cap : Nat) : ∀ (ps : List Pkt) (size : Nat), ∀ q ∈ (ptoTake cap size ps).1, q.lost = none →
    ∃ p ∈ ps, q.pn = p.pn ∧ q.sent = p.sent ∧ p.lost = none := by
  intro ps
  induction ps with
  | nil => intro _ q hq; cases hq
  | cons p ps ih =>
    intro size q hq hl
    unfold ptoTake at hq
    have hself : ∀ r : Pkt, r ∈ ps → r.lost = none → ∃ x ∈ p :: ps, r.pn = x.pn ∧ r.sent = x.sent ∧ x.lost = none :=
      fun r hr h => ⟨r, List.mem_cons_of_mem _ hr, rfl, rfl, h⟩
    split at hq
    · dsimp only at hq
      split at hq
      · rcases List.mem_cons.mp hq with rfl | hq
        · exact ⟨p, List.mem_cons_self, rfl, rfl, hl⟩
        · obtain ⟨x, hx, r⟩ := ih _ q hq hl
          exact ⟨x, List.mem_cons_of_mem _ hx, r⟩
      · rcases List.mem_cons.mp hq with rfl | hq
        · exact ⟨p, List.mem_cons_self, rfl, rfl, hl⟩
        · exact hself q hq hl
    · dsimp only at hq
      rcases List.mem_cons.mp hq with rfl | hq
      · exact ⟨q, List.mem_cons_self, rfl, rfl, hl⟩
      · obtain ⟨x, hx, r⟩ := ih _ q hq hl
        exact ⟨x, List.mem_cons_of_mem _ hx, r⟩

theorem SameAll.set {s : Sys} {id : SpaceId} {sp sp' : Space} (hs : s.spaces id = some sp) (h : SameOoo sp sp') : SameAll s (s.setSpace id (some sp')) := by
  intro j x hj
  unfold Sys.setSpace at hj
  dsimp only at hj
  split at hj
  · rename_i e
    injection hj with hj
    subst hj e
    exact ⟨sp, hs, h⟩
  · exact ⟨x, hj, .refl _⟩

theorem ptoCollect_same (cap : Nat) : ∀ (ids : List SpaceId) (s : Sys) (size : Nat), SameAll s (s.ptoCollect cap size ids).1 := by
  intro ids
  induction ids with
  | nil => intro s size; exact .refl rfl
  | cons id ids ih =>
    intro s size
    unfold Sys.ptoCollect
    split
    · exact ih s size
    · rename_i sp hsp
      dsimp only
      exact (SameAll.set (sp' := { sp with pkts := (ptoTake cap size sp.pkts).1 }) hsp ⟨rfl, rfl, ptoTake_same cap sp.pkts size⟩).trans (ih _ _)

theorem firePto_spaces {s s' : Sys} {id : SpaceId} {l : List SpaceId} (h : s.firePto id l = .ok s') : s'.spaces = s.spaces := by
  unfold Sys.firePto at h
  split at h
  · split at h
    · injection h with h; rw [← h]
    · injection h with h; rw [← h]
  · cases h

theorem prime_same (s : Sys) (now : Nat) (k : Bool) : SameAll s (s.prime now k) := by
  unfold Sys.prime
  split
  · rename_i h1 h2 h3
    split
    · exact .set h3 ⟨rfl, rfl, fun q hq hl => ⟨q, hq, rfl, rfl, hl⟩⟩
    · exact .refl rfl
  · exact .refl rfl

theorem maybeFirePto_same {s s' : Sys} {now : Nat} {k : Bool} {l : List Pkt} (h : s.maybeFirePto now k = .ok (s', l)) : SameAll s s' := by
  unfold Sys.maybeFirePto at h
  split at h
  · cases h
  · rename_i allow due hd
    split at h
    · injection h with h
      injection h with h _
      exact .refl (by rw [h])
    · dsimp only at h
      split at h
      · cases h
      · rename_i id rest _ s1 hs1
        injection h with h
        injection h with h _
        have a := ptoCollect_same (maxPtoPackets * s.cc.mtu) (retransmitSet (id :: rest)) s 0
        have b : SameAll _ s1 := .refl (firePto_spaces hs1)
        rw [← h]
        split
        · exact (a.trans b).trans (prime_same _ _ _)
        · exact a.trans b

/-- After a timeout, everything is in the future as far as the loss timer is concerned. -/
theorem Reached.timeout_fresh (hr : Reached m h) {now : Nat} {k : Bool} (hs : h.step (.timeout now k) = .ok (h', o)) :
    ∀ id sp, h'.s.spaces id = some sp → Fresh now h.s.rtt.lossDelay sp := by
  intro id sp hsp
  obtain ⟨s', h1, rfl⟩ := Hist.step_ok hs
  have hi := hr.inv
  obtain ⟨r, hr', e1⟩ := map_eq_ok h1
  injection e1 with e1 e2
  subst e1 e2
  unfold Sys.onTimeout at hr'
  split at hr'
  · cases hr'
  · rename_i s1 l1 ht
    split at hr'
    · cases hr'
    · rename_i s2 l2 hf
      injection hr' with hr'
      subst hr'
      obtain ⟨_, _, b3, _⟩ := timeoutSpaces_out (by decide) ht
      obtain ⟨sp1, c1, c2⟩ := maybeFirePto_same hf id sp hsp
      obtain ⟨sp0, cd, l, d1, d2⟩ := b3 id (mem_allSpaces id) sp1 c1
      have ho := hi.core.sp id sp0 d1
      exact c2.fresh (detectLost_fresh ho.sorted ho.timed ho.lostFirst d2)

theorem onAck_inv (hi : Inv m h) (ho : OInv h.s) {id : SpaceId} {rs : List (Nat × Nat)} {i : AckIn} {now : Nat} (hd : Descending none rs)
    {r : Sys × List Pkt × List Pkt} (h1 : h.s.onAck id rs i now = .ok r) : OInv r.1 := by
  unfold Sys.onAck at h1
  split at h1
  · injection h1 with h1; rw [← h1]; exact ho
  · rename_i sp hsp
    have hsp' := hi.core.sp id sp hsp
    rw [takeRanges_ok hsp'.sorted hd] at h1
    dsimp only at h1
    unfold Space.removeOutstanding at h1
    split at h1
    · cases h1
    · rename_i sp1 h2
      split at h2
      · injection h2 with h2
        split at h1
        · cases h1
        · rename_i st hst
          have hsub : ∀ q ∈ sp1.pkts, q ∈ sp.pkts := by
            intro q hq
            rw [← h2] at hq
            exact (List.mem_filter.mp hq).1
          split at h1
          · injection h1 with h1
            rw [← h1]
            refine OInv.set (s := { h.s with stats := st }) (ho.spaces rfl) ?_
            refine (ho id sp hsp).of (by rw [← h2]) (by rw [← h2]) fun q hq hl => .inl ⟨q, hsub q hq, rfl, rfl, hl⟩
          · rename_i top rest hack
            unfold Sys.ackFound at h1
            split at h1
            · cases h1
            · rename_i s2 sp2 hn
              split at h1
              · cases h1
              · rename_i sp3 lost hdl
                split at h1
                · cases h1
                · split at h1
                  · cases h1
                  · injection h1 with h1
                    have hp2 : sp2.pkts = sp1.pkts ∧ s2.spaces = h.s.spaces := by
                      unfold Sys.newLargest at hn
                      split at hn
                      · dsimp only at hn
                        split at hn
                        · split at hn
                          · cases hn
                          · rename_i s4 hs4
                            injection hn with hn
                            injection hn with n1 n2
                            subst n1 n2
                            refine ⟨rfl, ?_⟩
                            unfold Sys.rttSample at hs4
                            dsimp only at hs4
                            split at hs4
                            · split at hs4
                              · cases hs4
                              · injection hs4 with hs4; rw [← hs4]
                            · injection hs4 with hs4; rw [← hs4]
                        · injection hn with hn
                          injection hn with n1 n2
                          subst n1 n2
                          exact ⟨rfl, rfl⟩
                      · injection hn with hn
                        injection hn with n1 n2
                        subst n1 n2
                        exact ⟨rfl, rfl⟩
                    have hpk : sp2.pkts = sp.pkts.filter fun p => !inRanges rs p := by rw [hp2.1, ← h2]
                    have hf : Fresh now s2.rtt.lossDelay sp3 := by
                      refine detectLost_fresh ?_ ?_ ?_ hdl
                      · rw [hpk]; exact hsp'.sorted.filter _
                      · rw [hpk]; exact List.Pairwise.filter _ hsp'.timed
                      · rw [hpk]; exact List.Pairwise.filter _ hsp'.lostFirst
                    rw [← h1]
                    intro j x hj
                    have hj : (s2.setSpace id (some sp3)).spaces j = some x := hj
                    exact (OInv.set (ho.spaces hp2.2) hf.1) j x hj
      · cases h2

theorem OooOK.empty {sp : Space} (h : sp.pkts = []) : OooOK sp := by
  intro n _ p hp
  rw [h] at hp
  cases hp

theorem track_snoc {ps ps' : List Pkt} {p : Pkt} (h : track ps p = .ok ps') : ps' = ps ++ [p] := by
  unfold track at h
  repeat' split at h
  all_goals first | (injection h with h; exact h.symm) | cases h

theorem OInv.step (hi : Inv m h) (hr : Reached m h) (ho : OInv h.s) (hl : Legal m h e) (hs : h.step e = .ok (h', o)) : OInv h'.s := by
  have hs0 := hs
  obtain ⟨s', h1, rfl⟩ := Hist.step_ok hs
  show OInv s'
  cases e with
  | send p on =>
    obtain ⟨r, h2, e1⟩ := map_eq_ok h1
    injection e1 with e1 _
    subst e1
    unfold Sys.onSent at h2
    dsimp only at h2
    split at h2
    · injection h2 with h2; rw [← h2]; exact ho.spaces rfl
    · rename_i sp hsp
      have hsp : h.s.spaces p.pt.space = some sp := hsp
      split at h2
      · cases h2
      · rename_i sp' hsent
        injection h2 with h2
        rw [← h2]
        have hsp' := hi.core.sp _ sp hsp
        refine OInv.set (ho.spaces ?_) ?_
        · unfold Sys.pathSent
          cases on <;> rfl
        · unfold Space.onSent at hsent
          split at hsent
          · cases hsent
          · rename_i ps htr
            injection hsent with hsent
            rw [← hsent]
            refine (ho _ sp hsp).of rfl rfl fun q hq hql => ?_
            have hq : q ∈ ps := hq
            rw [track_snoc htr] at hq
            rcases List.mem_append.mp hq with hq | hq
            · exact .inl ⟨q, hq, rfl, rfl, hql⟩
            · rw [List.mem_singleton] at hq
              refine .inr fun n hn => ?_
              have := (hsp'.la n hn).1
              have := hl.2
              rw [hq]
              show n ≤ p.pn
              omega
  | ack id rs i now =>
    obtain ⟨r, h2, e1⟩ := map_eq_ok h1
    injection e1 with e1 _
    subst e1
    exact onAck_inv hi ho hl.2.1 h2
  | timeout now k =>
    exact fun id sp hsp => (hr.timeout_fresh hs0 id sp hsp).1
  | retry now =>
    obtain ⟨r, h2, e1⟩ := map_eq_ok h1
    injection e1 with e1 _
    subst e1
    unfold Sys.retry at h2
    dsimp only at h2
    split at h2
    · cases h2
    · rename_i s2 hd
      injection h2 with h2
      rw [← h2]
      refine OInv.spaces ?_ (discardAll_spaces hd).1
      intro j sp hj
      have hj : (h.s.spaces j).map Space.ignored = some sp := hj
      obtain ⟨x, _, hx⟩ := Option.map_eq_some_iff.mp hj
      exact .empty (by rw [← hx]; rfl)
  | drop0rtt now =>
    obtain ⟨r, h2, e1⟩ := map_eq_ok h1
    injection e1 with e1 _
    subst e1
    unfold Sys.drop0rtt at h2
    split at h2
    · injection h2 with h2; rw [← h2]; exact ho
    · split at h2
      · injection h2 with h2; rw [← h2]; exact ho
      · split at h2
        · cases h2
        · rename_i s2 hd
          injection h2 with h2
          rw [← h2]
          exact (ho.set (OooOK.empty rfl)).spaces (discardAll_spaces hd).1
  | discard id now =>
    obtain ⟨r, h2, e1⟩ := map_eq_ok h1
    injection e1 with e1 _
    subst e1
    unfold Sys.discardSpace at h2
    split at h2
    · cases h2
    · split at h2
      · cases h2
      · split at h2
        · cases h2
        · rename_i s2 hd
          dsimp only at h2
          have hsp := (discardAll_spaces hd).1
          have ho2 : OInv s2 := by
            intro j sp hj
            rw [hsp] at hj
            unfold Sys.setSpace at hj
            dsimp only at hj
            split at hj
            · cases hj
            · exact ho j sp hj
          split at h2
          · unfold Sys.confirm at h2
            split at h2
            · cases h2
            · dsimp only at h2
              split at h2
              · cases h2
              · injection h2 with h2; rw [← h2]; exact ho2.spaces rfl
              · split at h2
                · exact OInv.spaces (s := { s2 with pto := none, confirmed := some now }) (ho2.spaces rfl) (firePto_spaces h2)
                · injection h2 with h2; rw [← h2]; exact ho2.spaces rfl
          · injection h2 with h2; rw [← h2]; exact ho2.spaces rfl
  | addPath rtt mtu => injection h1 with h1; injection h1 with h1 _; rw [← h1]; exact ho.spaces rfl
  | migrate i =>
    injection h1 with h1
    injection h1 with h1 _
    rw [← h1]
    intro j sp hj
    have hj : ((h.s.switchPath i).spaces j).map Space.migrate = some sp := hj
    have e : (h.s.switchPath i).spaces = h.s.spaces := by unfold Sys.switchPath; split <;> rfl
    rw [e] at hj
    obtain ⟨x, hx, hx2⟩ := Option.map_eq_some_iff.mp hj
    refine (ho j x hx).of (by rw [← hx2]; rfl) (by rw [← hx2]; rfl) fun q hq hql => ?_
    rw [← hx2] at hq
    obtain ⟨p, hp, rfl⟩ := List.mem_map.mp hq
    exact .inl ⟨p, hp, rfl, rfl, hql⟩
  | peerMigrate i =>
    injection h1 with h1
    injection h1 with h1 _
    rw [← h1]
    exact ho.spaces (by unfold Sys.switchPath; split <;> rfl)
  | setMtu _ => injection h1 with h1; injection h1 with h1 _; rw [← h1]; exact ho.spaces rfl
  | setAckDelay _ => injection h1 with h1; injection h1 with h1 _; rw [← h1]; exact ho.spaces rfl
  | profile amp pace =>
    obtain ⟨r, h2, e1⟩ := map_eq_ok h1
    injection e1 with e1 _
    subst e1
    have e : r.1.spaces = h.s.spaces := by
      unfold Sys.sendProfile at h2
      dsimp only at h2
      repeat' split at h2
      all_goals first | (injection h2 with h2; rw [← h2]) | cases h2
    exact ho.spaces e

theorem Reached.oinv (hr : Reached m h) : OInv h.s := by
  induction hr with
  | new _ _ =>
    intro id sp hsp
    have : sp = { id := id } := by injection hsp with hsp; exact hsp.symm
    exact .empty (by rw [this])
  | step hr hl hs ih => exact .step hr.inv hr ih hl hs

end Neqo.Rec
