import Verif.Cid.Inv

/-!
The connection IDs an endpoint gives out (C34).
-/

namespace Neqo.Cid

open Neqo.Path (Entry)

/-- Run events that are all legal and all succeed. -/
def Hist.run (h : Hist) : List Ev → Option Hist
  | [] => some h
  | e :: l =>
    match h.step e with
    | .ok h' => h'.run l
    | .error _ => none

/-- A sequence of legal events. -/
def Hist.AllLegal (h : Hist) : List Ev → Prop
  | [] => True
  | e :: l =>
    h.Legal e ∧
    match h.step e with
    | .ok h' => h'.AllLegal l
    | .error _ => True

theorem Hist.run_reached {initial : List Nat} {emptyCids : Bool} {h h' : Hist} {l : List Ev}
    (hr : Reached initial emptyCids h) (hl : h.AllLegal l) (hs : h.run l = some h') :
    Reached initial emptyCids h' := by
  induction l generalizing h with
  | nil => obtain rfl := Option.some.inj hs; exact hr
  | cons e l ih =>
    obtain ⟨h1, h2⟩ := hl
    rw [Hist.run] at hs
    cases hx : h.step e with
    | error x => rw [hx] at hs; cases hs
    | ok h1' =>
      rw [hx] at hs h2
      exact ih (.step hr h1 hx) h2 hs

/-- The connection IDs given out have the sequence numbers 0, 1, 2 and so on: no two share one. -/
theorem C34_issued_distinct {initial : List Nat} {emptyCids : Bool} {h : Hist}
    (hr : Hist.Reached initial emptyCids h) :
    h.issued.map (·.seq) = (List.range h.issued.length).reverse := by
  have := hr.inv.seqs
  have hl := congrArg List.length this
  rw [List.length_map, List.length_reverse, List.length_range] at hl
  rw [hl]; exact this

/-- A NEW_CONNECTION_ID frame always says the same of a sequence number. -/
theorem C34_frames_consistent {initial : List Nat} {emptyCids : Bool} {h : Hist}
    (hr : Hist.Reached initial emptyCids h) {a b : Entry} (ha : a ∈ h.sent) (hb : b ∈ h.sent)
    (he : a.seq = b.seq) : a = b :=
  hr.inv.same (hr.inv.sentI a ha) (hr.inv.sentI b hb) he

/-- The endpoint accepts packets for exactly those connection IDs that it gave out and that the peer
did not retire, and for the client's first choice during the handshake. -/
theorem C34_accepts {initial : List Nat} {emptyCids : Bool} {h : Hist}
    (hr : Hist.Reached initial emptyCids h) (cid : List Nat) :
    h.m.isValid cid = true ↔
      (∃ e ∈ h.issued, e.seq ∉ h.retired ∧ e.cid = cid) ∨ (⟨seqOdcid, cid⟩ : LEntry) ∈ h.m.ids := by
  have hi := hr.inv
  unfold Mgr.isValid
  rw [List.any_eq_true]
  constructor
  · rintro ⟨e, he, hc⟩
    have hc := of_decide_eq_true hc
    by_cases ho : e.seq = seqOdcid
    · refine Or.inr ?_
      have : e = ⟨seqOdcid, cid⟩ := by cases e; cases ho; cases hc; rfl
      exact this ▸ he
    · have hm : e ∈ h.m.active := List.mem_filter.mpr ⟨he, decide_eq_true ho⟩
      rw [hi.act, List.mem_map] at hm
      obtain ⟨x, hx, rfl⟩ := hm
      rw [List.mem_reverse, List.mem_filter] at hx
      exact Or.inl ⟨x, hx.1, of_decide_eq_true hx.2, hc⟩
  · rintro (⟨e, he, h1, h2⟩ | hm)
    · exact ⟨toL e, (hi.mem_ids (hi.lt he)).mpr ⟨e, he, h1, rfl⟩, decide_eq_true h2⟩
    · exact ⟨_, hm, decide_eq_true rfl⟩

/-- The number of connection IDs given out and not retired is within the limit that the peer set, or
2 before it did, and never above 8. -/
theorem C34_within_limit {initial : List Nat} {emptyCids : Bool} {h : Hist}
    (hr : Hist.Reached initial emptyCids h) :
    (h.issued.filter (fun e => e.seq ∉ h.retired)).length ≤ h.m.limit ∧ h.m.limit ≤ 8 := by
  have hi := hr.inv
  refine ⟨?_, hi.lim.2⟩
  have := hi.cnt
  rw [hi.act, List.length_map, List.length_reverse] at this
  exact this

/-- The limit is what the peer asked for. -/
theorem C34_limit_is_peers {h h' : Hist} {n : Nat} (hs : h.step (.setLimit n) = .ok h') :
    h'.m.limit ≤ n := by
  have hs : (h.m.setLimit n >>= fun m => (.ok { h with m } : Except Err Hist)) = .ok h' := hs
  unfold Mgr.setLimit at hs
  split at hs
  · cases hs
  · obtain rfl := Except.ok.inj hs
    exact Nat.min_le_right _ _

/-- Connection IDs that the peer retired are replaced: a packet with room brings their number back
to the limit. -/
theorem C34_replaced {initial : List Nat} {h h' : Hist} {room : Nat}
    {gen : List (Option (List Nat × Nat))} (hr : Hist.Reached initial false h)
    (hl : h.Legal (.write room gen)) (hs : h.step (.write room gen) = .ok h')
    (he : h.m.emptyCids = false) (hlost : h.m.lost = []) (hroom : 47 * 8 ≤ room)
    (ho : ∀ e ∈ h.m.ids, e.seq ≠ seqOdcid) :
    (h'.issued.filter (fun e => e.seq ∉ h'.retired)).length = h.m.limit := by
  have hi := hr.inv
  have hi' := hi.step hl hs
  have hs : (h.m.writeFrames room gen >>= fun w => (.ok { h with
      m := w.mgr
      issued := (w.tokens.filter (fun e => h.m.next ≤ e.seq)).reverse ++ h.issued
      sent := w.frames.reverse ++ h.sent
      out := w.tokens.reverse ++ h.out } : Except Err Hist)) = .ok h' := hs
  cases hw : h.m.writeFrames room gen with
  | error x => rw [hw] at hs; cases hs
  | ok w =>
    rw [hw] at hs
    obtain ⟨new, k, _⟩ := (writeFrames_ok hi hl).1 w hw
    have hm : h'.m = w.mgr := by rw [← Except.ok.inj hs]
    have hlim : h'.m.limit = h.m.limit := by rw [hm, k.mgr]
    have hids : h'.m.ids = h.m.ids ++ new.map toL := by rw [hm, k.mgr]
    have h1 := hi'.cnt
    have h3 : h'.m.active.length = h.m.ids.length + new.length := by
      have : h'.m.active = h'.m.ids := by
        unfold Mgr.active
        rw [List.filter_eq_self]
        intro e hem
        rw [hids, List.mem_append] at hem
        rcases hem with hem | hem
        · exact decide_eq_true (ho e hem)
        · obtain ⟨x, hx, rfl⟩ := List.mem_map.mp hem
          have hxs : x.seq ∈ new.map (·.seq) := List.mem_map.mpr ⟨x, hx, rfl⟩
          rw [k.seqs, List.mem_range'_1] at hxs
          have := hi'.small
          rw [hm, k.mgr] at this
          have : h.m.next + new.length ≤ 2 ^ 62 := this
          refine decide_eq_true ?_
          show x.seq ≠ seqOdcid
          unfold seqOdcid
          omega
      rw [this, hids, List.length_append, List.length_map]
    have h4 : h'.m.active.length = (h'.issued.filter (fun e => e.seq ∉ h'.retired)).length := by
      rw [hi'.act, List.length_map, List.length_reverse]
    have h5 := k.full he hlost
    have h6 := hi.lim.2
    have h7 := k.fits
    have h8 : new = [] ∨ 0 < new.length := by
      cases new with
      | nil => exact Or.inl rfl
      | cons a l => exact Or.inr (Nat.zero_lt_succ _)
    rw [← h4, h3]
    rw [hlim, h3] at h1
    rcases h5 with h5 | h5
    · omega
    · omega

/-- The packet can be written if the generator gives enough answers. -/
theorem C34_write_succeeds {initial : List Nat} {emptyCids : Bool} {h : Hist} {room : Nat}
    {gen : List (Option (List Nat × Nat))} (hr : Hist.Reached initial emptyCids h)
    (hl : h.Legal (.write room gen))
    (hg : h.m.limit ≤ (gen.filter (fun a => a.isSome)).length) :
    ∃ h', h.step (.write room gen) = .ok h' := by
  cases hw : h.m.writeFrames room gen with
  | error x =>
    have := ((writeFrames_ok hr.inv hl).2 x hw).2
    omega
  | ok w =>
    exact ⟨_, by unfold Hist.step; simp only [hw, bind, Except.bind]; rfl⟩

/-- The peer gets to know every connection ID: it was told by other means, retired it or
acknowledged a frame, or a frame is in flight or will be sent again. -/
theorem C34_reliable {initial : List Nat} {emptyCids : Bool} {h : Hist}
    (hr : Hist.Reached initial emptyCids h) {e : Entry} (he : e ∈ h.issued) :
    e ∈ h.m.lost ∨ e ∈ h.out ∨ e.seq ∈ h.acked ∨ e.seq ∈ h.retired ∨ e.seq ∈ h.told :=
  hr.inv.rel e he

/-- Retiring a connection ID that was never given out is a protocol violation, and any other can be
retired. -/
theorem C34_retire_checked {initial : List Nat} {emptyCids : Bool} {h : Hist}
    (hr : Hist.Reached initial emptyCids h) (q : Nat) :
    (q < h.issued.length ∧ ∃ h', h.step (.retire q) = .ok h') ∨
    (h.issued.length ≤ q ∧ h.step (.retire q) = .error .protocolViolation) := by
  have hl := congrArg List.length hr.inv.seqs
  rw [List.length_map, List.length_reverse, List.length_range] at hl
  rw [hl]
  unfold Hist.step Mgr.retire
  by_cases hq : h.m.next ≤ q
  · refine Or.inr ⟨hq, ?_⟩
    dsimp only
    rw [if_pos hq]
    rfl
  · refine Or.inl ⟨by omega, ?_⟩
    dsimp only
    rw [if_neg hq]
    split <;> exact ⟨_, rfl⟩

/-- No event makes an assertion fail. -/
theorem C34_no_panic {initial : List Nat} {emptyCids : Bool} {h : Hist} {e : Ev}
    (hr : Hist.Reached initial emptyCids h) (hl : h.Legal e) : h.step e ≠ .error .panic := by
  intro hs
  cases e with
  | preferred a =>
    obtain ⟨h1, h2⟩ := hl
    unfold Hist.step Mgr.preferred at hs
    dsimp only at hs
    split at hs
    · cases hs
    · cases a with
      | none => cases hs
      | some cid =>
        dsimp only at hs
        rw [if_neg (by rintro (h3 | h3); exact h2 (by rw [h3]); exact h3 h1)] at hs
        cases hs
  | addOdcid cid => cases hs
  | removeOdcid => cases hs
  | setLimit n =>
    unfold Hist.step Mgr.setLimit at hs
    dsimp only at hs
    rw [if_neg (by have := hl.1; omega)] at hs
    cases hs
  | retire q =>
    rcases C34_retire_checked hr q with ⟨_, h', h1⟩ | ⟨_, h1⟩
    · rw [h1] at hs; cases hs
    · rw [h1] at hs; cases hs
  | write room gen =>
    cases hw : h.m.writeFrames room gen with
    | error x =>
      have := ((writeFrames_ok hr.inv hl).2 x hw).1
      subst this
      unfold Hist.step at hs
      simp only [hw, bind, Except.bind] at hs
      cases hs
    | ok w =>
      unfold Hist.step at hs
      simp only [hw, bind, Except.bind] at hs
      cases hs
  | lost e => cases hs
  | acked e => cases hs

/-- A server that gives out three connection IDs; the peer retires two of them. -/
def demo : List Ev :=
  [.addOdcid [7], .write 1000 [], .setLimit 3, .removeOdcid, .write 1000 [some ([1], 91), some ([2], 92)],
   .retire 0, .lost ⟨1, [1], 91⟩, .retire 1]

example : (Hist.init [9] false).AllLegal demo := by
  refine ⟨trivial, ⟨by decide, fun a ha => by cases ha⟩, ⟨by decide, rfl⟩, trivial, ⟨by decide, ?_⟩,
    trivial, ?_, trivial, trivial⟩
  · intro a ha x hx
    subst hx
    simp only [List.mem_cons, List.not_mem_nil, or_false, Option.some.injEq] at ha
    rcases ha with rfl | rfl <;> decide
  · show (⟨1, [1], 91⟩ : Entry) ∈ _
    decide +kernel

example : ((Hist.init [9] false).run demo).map (fun h => (h.issued, h.retired, h.m.ids, h.m.lost)) =
    some ([⟨2, [2], 92⟩, ⟨1, [1], 91⟩, ⟨0, [9], 0⟩], [1, 0], [⟨2, [2]⟩], []) := by decide +kernel

-- Two more are given out.
example : ((Hist.init [9] false).run (demo ++ [.write 1000 [some ([3], 93), none, some ([4], 94)]])).map
    (fun h => (h.m.ids, h.sent)) =
    some ([⟨2, [2]⟩, ⟨3, [3]⟩, ⟨4, [4]⟩],
      [⟨4, [4], 94⟩, ⟨3, [3], 93⟩, ⟨2, [2], 92⟩, ⟨1, [1], 91⟩]) := by decide +kernel

/-- A connection ID is advertised again after the peer retired it, if a packet that advertised it is
declared lost late. -/
theorem C34_retired_advertised_again : ∃ h h', Hist.Reached [9] false h ∧ 1 ∈ h.retired ∧
    h.step (.write 1000 []) = .ok h' ∧ h'.sent = ⟨1, [1], 91⟩ :: h.sent := by
  refine ⟨_, _, Hist.run_reached (l := [.write 1000 [some ([1], 91)], .retire 1,
    .write 1000 [some ([2], 92)], .lost ⟨1, [1], 91⟩]) .init ?_ rfl, by decide +kernel, rfl, rfl⟩
  refine ⟨⟨by decide, ?_⟩, trivial, ⟨by decide, ?_⟩, ?_, trivial⟩
  · intro a ha x hx
    subst hx
    simp only [List.mem_cons, List.not_mem_nil, or_false, Option.some.injEq] at ha
    subst ha; decide
  · intro a ha x hx
    subst hx
    simp only [List.mem_cons, List.not_mem_nil, or_false, Option.some.injEq] at ha
    subst ha; decide
  · show (⟨1, [1], 91⟩ : Entry) ∈ _
    decide +kernel

/-- A generator that is exhausted, which its contract allows, makes writing a packet never end: it
is still running after any number of answers. -/
theorem C34_exhausted_generator_hangs (initial : List Nat) (n room : Nat) (h : 47 ≤ room) :
    (Hist.init initial false).step (.write room (List.replicate n none)) = .error .running := by
  have : ∀ (k : Nat) (m : Mgr), m.ids.length < m.limit →
      writeNew m room (List.replicate k none) = .error .running := by
    intro k m hm
    induction k with
    | zero =>
      show writeNew m room [] = _
      rw [writeNew, if_pos ⟨hm, h⟩]
    | succ k ih =>
      rw [List.replicate_succ, writeNew, if_pos ⟨hm, h⟩]
      exact ih
  have hk := this n (Mgr.new initial false) (by show 1 < 2; decide)
  unfold Hist.step Mgr.writeFrames
  dsimp only
  rw [if_neg (by show ¬ false = true; decide)]
  show ((match writeNew (Mgr.new initial false) room (List.replicate n none) with
    | .error x => .error x
    | .ok v => .ok ⟨[] ++ v.frames, [] ++ v.tokens, v.mgr⟩ : Except Err Written) >>= _) = _
  rw [hk]
  rfl

end Neqo.Cid
