import Verif.Cid.Spec

/-!
The invariant of the connection IDs an endpoint gives out.
-/

namespace Neqo.Cid

open Neqo.Path (Entry)

/-- What an issued connection ID is in the store. -/
def toL (e : Entry) : LEntry := ⟨e.seq, e.cid⟩

theorem size_some {e : Entry} (h : e.seq < 2 ^ 62) (hc : e.cid.length ≤ 20) :
    ∃ n, size e = some n ∧ n ≤ 47 := by
  unfold size Neqo.Codec.varintLen
  have h : e.seq < 1 <<< 62 := h
  by_cases h1 : e.seq < 1 <<< 6
  · rw [if_pos h1]; exact ⟨_, rfl, by dsimp only; omega⟩
  rw [if_neg h1]
  by_cases h2 : e.seq < 1 <<< 14
  · rw [if_pos h2]; exact ⟨_, rfl, by dsimp only; omega⟩
  rw [if_neg h2]
  by_cases h3 : e.seq < 1 <<< 30
  · rw [if_pos h3]; exact ⟨_, rfl, by dsimp only; omega⟩
  rw [if_neg h3, if_pos h]; exact ⟨_, rfl, by dsimp only; omega⟩

theorem size_ok {e : Entry} (h : e.seq < 2 ^ 62) : ∃ n, size e = some n := by
  unfold size Neqo.Codec.varintLen
  have h : e.seq < 1 <<< 62 := h
  by_cases h1 : e.seq < 1 <<< 6
  · rw [if_pos h1]; exact ⟨_, rfl⟩
  rw [if_neg h1]
  by_cases h2 : e.seq < 1 <<< 14
  · rw [if_pos h2]; exact ⟨_, rfl⟩
  rw [if_neg h2]
  by_cases h3 : e.seq < 1 <<< 30
  · rw [if_pos h3]; exact ⟨_, rfl⟩
  rw [if_neg h3, if_pos h]; exact ⟨_, rfl⟩

theorem writeLost_ok {room : Nat} {l : List Entry} (h : ∀ e ∈ l, e.seq < 2 ^ 62) :
    ∃ w r k, writeLost room l = .ok (w, r, k) ∧ w ++ k = l ∧ r ≤ room := by
  induction l generalizing room with
  | nil => exact ⟨[], room, [], rfl, rfl, Nat.le_refl _⟩
  | cons e l ih =>
    obtain ⟨n, hn⟩ := size_ok (h e List.mem_cons_self)
    rw [writeLost, hn]
    dsimp only
    split
    · exact ⟨[], room, e :: l, rfl, rfl, Nat.le_refl _⟩
    · obtain ⟨w, r, k, h1, h2, h3⟩ := ih (room := room - n) (fun x hx => h x (List.mem_cons_of_mem _ hx))
      rw [h1]
      exact ⟨e :: w, r, k, rfl, by rw [List.cons_append, h2], by omega⟩

/-- The answers of a generator that keeps to its contract. -/
def GenOk (gen : List (Option (List Nat × Nat))) : Prop :=
  ∀ a ∈ gen, ∀ x, a = some x → 1 ≤ x.1.length ∧ x.1.length ≤ 20

/-- What the second loop does. -/
structure NewOk (m : Mgr) (room : Nat) (w : Written) : Prop where
  frames : w.frames = w.tokens
  mgr : w.mgr = { m with ids := m.ids ++ w.tokens.map toL, next := m.next + w.tokens.length }
  seqs : w.tokens.map (·.seq) = (List.range' m.next w.tokens.length)
  fits : w.tokens = [] ∨ m.ids.length + w.tokens.length ≤ m.limit
  full : m.limit ≤ m.ids.length + w.tokens.length ∨ room < 47 * (w.tokens.length + 1)
  lens : ∀ e ∈ w.tokens, e.cid ≠ []

theorem writeNew_cons (m : Mgr) (room : Nat) (a : Option (List Nat × Nat))
    (l : List (Option (List Nat × Nat))) :
    writeNew m room (a :: l) =
    if m.ids.length < m.limit ∧ 47 ≤ room then
      match a with
      | none => writeNew m room l
      | some (cid, srt) =>
        if cid = [] then .error .panic
        else
          match size ⟨m.next, cid, srt⟩ with
          | none => .error .panic
          | some n =>
            match writeNew { m with ids := m.ids ++ [⟨m.next, cid⟩], next := m.next + 1 }
                (if room < n then room else room - n) l with
            | .error x => .error x
            | .ok w =>
              .ok ⟨(if room < n then [] else [⟨m.next, cid, srt⟩]) ++ w.frames,
                ⟨m.next, cid, srt⟩ :: w.tokens, w.mgr⟩
    else .ok ⟨[], [], m⟩ := by
  rcases a with _ | ⟨c, s⟩
  · rw [writeNew]
  · rw [writeNew]; rfl

theorem writeNew_ok {m : Mgr} {room : Nat} {gen : List (Option (List Nat × Nat))}
    (hn : m.next + gen.length ≤ 2 ^ 62) (hg : GenOk gen) :
    (∀ w, writeNew m room gen = .ok w → NewOk m room w) ∧
    (∀ x, writeNew m room gen = .error x → x = .running ∧
      (gen.filter (fun a => a.isSome)).length < m.limit - m.ids.length) := by
  induction gen generalizing m room with
  | nil =>
    rw [writeNew]
    by_cases hc : m.ids.length < m.limit ∧ 47 ≤ room
    · rw [if_pos hc]
      refine ⟨fun w h => (by cases h), fun x h => ?_⟩
      obtain rfl := Except.error.inj h
      refine ⟨rfl, ?_⟩
      show 0 < _
      omega
    · rw [if_neg hc]
      refine ⟨fun w h => ?_, fun x h => (by cases h)⟩
      obtain rfl := Except.ok.inj h
      refine ⟨rfl, by simp, rfl, Or.inl rfl, ?_, fun e he => by cases he⟩
      show m.limit ≤ m.ids.length + 0 ∨ room < 47 * (0 + 1)
      omega
  | cons a l ih =>
    rw [writeNew_cons]
    by_cases hc : m.ids.length < m.limit ∧ 47 ≤ room
    · rw [if_pos hc]
      rw [List.length_cons] at hn
      have hg' : GenOk l := fun b hb => hg b (List.mem_cons_of_mem _ hb)
      cases a with
      | none =>
        obtain ⟨h1, h2⟩ := ih (m := m) (room := room) (by omega) hg'
        exact ⟨h1, h2⟩
      | some x =>
        obtain ⟨cid, srt⟩ := x
        obtain ⟨hl1, hl2⟩ := hg _ List.mem_cons_self _ rfl
        have hl1 : 1 ≤ cid.length := hl1
        have hl2 : cid.length ≤ 20 := hl2
        have hne : cid ≠ [] := by rintro rfl; exact absurd hl1 (by decide)
        dsimp only
        rw [if_neg hne]
        obtain ⟨n, hs, hn47⟩ := size_some (e := ⟨m.next, cid, srt⟩)
          (show m.next < 2 ^ 62 by omega) hl2
        rw [hs]
        dsimp only
        have hroom : ¬ room < n := by omega
        rw [if_neg hroom, if_neg hroom]
        obtain ⟨h1, h2⟩ := ih (m := { m with ids := m.ids ++ [⟨m.next, cid⟩], next := m.next + 1 })
          (room := room - n) (by show m.next + 1 + l.length ≤ _; omega) hg'
        cases hw : writeNew { m with ids := m.ids ++ [⟨m.next, cid⟩], next := m.next + 1 } (room - n) l with
        | error y =>
          refine ⟨fun w h => (by cases h), fun x h => ?_⟩
          obtain rfl := Except.error.inj h
          obtain ⟨h3, h4⟩ := h2 _ hw
          refine ⟨h3, ?_⟩
          have h4 : _ < m.limit - (m.ids ++ [(⟨m.next, cid⟩ : LEntry)]).length := h4
          rw [List.length_append] at h4
          have h4 : (l.filter (fun a => a.isSome)).length < m.limit - (m.ids.length + 1) := h4
          show (some (cid, srt) :: l.filter (fun a => a.isSome)).length < _
          rw [List.length_cons]
          omega
        | ok v =>
          refine ⟨fun w h => ?_, fun x h => (by cases h)⟩
          obtain rfl := Except.ok.inj h
          have k := h1 v hw
          have kf : v.tokens = [] ∨ (m.ids ++ [(⟨m.next, cid⟩ : LEntry)]).length + v.tokens.length ≤ m.limit :=
            k.fits
          have ku : m.limit ≤ (m.ids ++ [(⟨m.next, cid⟩ : LEntry)]).length + v.tokens.length ∨
            room - n < 47 * (v.tokens.length + 1) := k.full
          rw [List.length_append] at kf ku
          have hsing : [(⟨m.next, cid⟩ : LEntry)].length = 1 := rfl
          rw [hsing] at kf ku
          refine ⟨?_, ?_, ?_, ?_, ?_, ?_⟩
          · show [_] ++ v.frames = _ :: v.tokens
            rw [k.frames]; rfl
          · show v.mgr = _
            rw [k.mgr]
            dsimp only
            rw [List.length_cons, List.map_cons, List.append_assoc]
            have : m.next + 1 + v.tokens.length = m.next + (v.tokens.length + 1) := by omega
            rw [this]
            rfl
          · show _ :: v.tokens.map (·.seq) = _
            rw [k.seqs, List.length_cons]
            rfl
          · refine Or.inr ?_
            rw [List.length_cons]
            rcases kf with h | h
            · rw [h]
              show m.ids.length + (0 + 1) ≤ _
              omega
            · omega
          · rw [List.length_cons]
            omega
          · intro e he
            rcases List.mem_cons.mp he with rfl | he
            · exact hne
            · exact k.lens e he
    · rw [if_neg hc]
      refine ⟨fun w h => ?_, fun x h => (by cases h)⟩
      obtain rfl := Except.ok.inj h
      refine ⟨rfl, by simp, rfl, Or.inl rfl, ?_, fun e he => by cases he⟩
      show m.limit ≤ m.ids.length + 0 ∨ room < 47 * (0 + 1)
      omega

/-- The invariant. -/
structure CInv (h : Hist) : Prop where
  seqs : h.issued.map (·.seq) = (List.range h.m.next).reverse
  act : h.m.active = ((h.issued.filter (fun e => e.seq ∉ h.retired)).reverse).map toL
  cnt : h.m.active.length ≤ h.m.limit
  lim : 2 ≤ h.m.limit ∧ h.m.limit ≤ 8
  lostI : ∀ e ∈ h.m.lost, e ∈ h.issued
  outI : ∀ e ∈ h.out, e ∈ h.issued
  sentI : ∀ e ∈ h.sent, e ∈ h.issued
  rel : ∀ e ∈ h.issued, e ∈ h.m.lost ∨ e ∈ h.out ∨ e.seq ∈ h.acked ∨ e.seq ∈ h.retired ∨ e.seq ∈ h.told
  small : h.m.next ≤ 2 ^ 62
  zero : ∀ q ∈ h.retired, q < h.m.next ∧ ¬ h.zeroLength q
  pos : 1 ≤ h.m.next

theorem CInv.lt {h : Hist} (hi : CInv h) {e : Entry} (he : e ∈ h.issued) : e.seq < h.m.next := by
  have : e.seq ∈ h.issued.map (·.seq) := List.mem_map.mpr ⟨e, he, rfl⟩
  rw [hi.seqs, List.mem_reverse, List.mem_range] at this
  exact this

theorem CInv.same {h : Hist} (hi : CInv h) {a b : Entry} (ha : a ∈ h.issued) (hb : b ∈ h.issued)
    (he : a.seq = b.seq) : a = b := by
  have hnd : (h.issued.map (·.seq)).Nodup := by
    rw [hi.seqs]; exact List.pairwise_reverse.mpr (List.nodup_range.imp (fun h => h.symm))
  generalize h.issued = l at ha hb hnd
  induction l with
  | nil => cases ha
  | cons x l ih =>
    rw [List.map_cons, List.nodup_cons] at hnd
    rcases List.mem_cons.mp ha with rfl | ha' <;> rcases List.mem_cons.mp hb with rfl | hb'
    · rfl
    · exact absurd (he ▸ List.mem_map.mpr ⟨b, hb', rfl⟩) hnd.1
    · exact absurd (he ▸ List.mem_map.mpr ⟨a, ha', rfl⟩) hnd.1
    · exact ih ha' hb' hnd.2

theorem CInv.init (initial : List Nat) (emptyCids : Bool) : CInv (Hist.init initial emptyCids) := by
  refine ⟨rfl, ?_, ?_, ⟨Nat.le_refl 2, (by decide : 2 ≤ 8)⟩, ?_, ?_, ?_, ?_, ?_, ?_, Nat.le_refl _⟩
  · rfl
  · show ([(⟨0, initial⟩ : LEntry)].filter _).length ≤ 2
    exact Nat.le_trans (List.length_filter_le _ _) (by show 1 ≤ 2; decide)
  · intro e he; cases he
  · intro e he; cases he
  · intro e he; cases he
  · intro e he
    obtain rfl := List.mem_singleton.mp he
    exact Or.inr (Or.inr (Or.inr (Or.inr List.mem_cons_self)))
  · show (1 : Nat) ≤ 2 ^ 62; decide
  · intro q hq; cases hq

theorem CInv.mem_ids {h : Hist} (hi : CInv h) {e : LEntry} (he : e.seq < h.m.next) :
    e ∈ h.m.ids ↔ ∃ x ∈ h.issued, x.seq ∉ h.retired ∧ toL x = e := by
  have hne : e.seq ≠ seqOdcid := by
    have := hi.small
    unfold seqOdcid
    omega
  have : e ∈ h.m.ids ↔ e ∈ h.m.active := by
    unfold Mgr.active
    rw [List.mem_filter]
    simp only [ne_eq, decide_not, Bool.not_eq_eq_eq_not, Bool.not_true, decide_eq_false_iff_not]
    exact ⟨fun h => ⟨h, hne⟩, fun h => h.1⟩
  rw [this, hi.act, List.mem_map]
  constructor
  · rintro ⟨x, hx, rfl⟩
    rw [List.mem_reverse, List.mem_filter] at hx
    exact ⟨x, hx.1, of_decide_eq_true hx.2, rfl⟩
  · rintro ⟨x, hx, hr, rfl⟩
    exact ⟨x, List.mem_reverse.mpr (List.mem_filter.mpr ⟨hx, decide_eq_true hr⟩), rfl⟩

/-- Whether the store finds a zero-length connection ID. -/
theorem CInv.zero_iff {h : Hist} (hi : CInv h) {q : Nat} (hq : q < h.m.next) :
    (h.m.ids.any (fun e => e.seq = q && e.cid = [])) = true ↔ h.zeroLength q := by
  rw [List.any_eq_true]
  constructor
  · rintro ⟨e, he, hc⟩
    rw [Bool.and_eq_true, decide_eq_true_eq, decide_eq_true_eq] at hc
    obtain ⟨x, hx, _, rfl⟩ := (hi.mem_ids (by rw [hc.1]; exact hq)).mp he
    exact ⟨x, hx, hc⟩
  · rintro ⟨x, hx, h1, h2⟩
    refine ⟨toL x, (hi.mem_ids (by show x.seq < _; omega)).mpr ⟨x, hx, ?_, rfl⟩, ?_⟩
    · intro hr
      exact (hi.zero _ hr).2 ⟨x, hx, rfl, h2⟩
    · rw [Bool.and_eq_true, decide_eq_true_eq, decide_eq_true_eq]
      exact ⟨h1, h2⟩

theorem CInv.preferred {h h' : Hist} (hi : CInv h) {a : Option (List Nat)}
    (hl : h.Legal (.preferred a)) (hs : h.step (.preferred a) = .ok h') : CInv h' := by
  obtain ⟨hn, ha⟩ := hl
  have hs : (h.m.preferred a >>= fun m => (.ok { h with
    m := m
    issued := (a.map (fun cid => (⟨h.m.next, cid, 0⟩ : Entry))).toList ++ h.issued
    told := h.m.next :: h.told } : Except Err Hist)) = .ok h' := hs
  unfold Mgr.preferred at hs
  by_cases he : h.m.emptyCids = true
  · rw [if_pos he] at hs; cases hs
  rw [if_neg he] at hs
  cases a with
  | none => cases hs
  | some cid =>
    dsimp only at hs
    have hc : ¬ (cid = [] ∨ h.m.next ≠ 1) := by
      rintro (h1 | h1)
      · exact ha (by rw [h1])
      · exact h1 hn
    rw [if_neg hc] at hs
    obtain rfl := Except.ok.inj hs
    have hne : h.m.next ≠ seqOdcid := by rw [hn]; decide
    have hnr : h.m.next ∉ h.retired := fun hr => absurd (hi.zero _ hr).1 (Nat.lt_irrefl _)
    have hact : (h.m.ids ++ [(⟨h.m.next, cid⟩ : LEntry)]).filter (fun e => e.seq ≠ seqOdcid) =
        h.m.active ++ [⟨h.m.next, cid⟩] := by
      rw [List.filter_append]
      congr 1
      rw [List.filter_cons, if_pos (decide_eq_true hne)]
      rfl
    have hfil : ((⟨h.m.next, cid, 0⟩ : Entry) :: h.issued).filter (fun e => e.seq ∉ h.retired) =
        ⟨h.m.next, cid, 0⟩ :: h.issued.filter (fun e => e.seq ∉ h.retired) := by
      rw [List.filter_cons, if_pos (decide_eq_true hnr)]
    refine ⟨?_, ?_, ?_, hi.lim, ?_, ?_, ?_, ?_, ?_, ?_, ?_⟩
    · show h.m.next :: h.issued.map (·.seq) = (List.range (h.m.next + 1)).reverse
      rw [hi.seqs, List.range_succ, List.reverse_append]
      rfl
    · show (h.m.ids ++ [(⟨h.m.next, cid⟩ : LEntry)]).filter (fun e => e.seq ≠ seqOdcid) =
        ((((⟨h.m.next, cid, 0⟩ : Entry) :: h.issued).filter (fun e => e.seq ∉ h.retired)).reverse).map toL
      rw [hact, hfil, List.reverse_cons, List.map_append, hi.act]
      rfl
    · show ((h.m.ids ++ [(⟨h.m.next, cid⟩ : LEntry)]).filter (fun e => e.seq ≠ seqOdcid)).length ≤ h.m.limit
      rw [hact, List.length_append, hi.act, List.length_map, List.length_reverse]
      have h1 : (h.issued.filter (fun e => e.seq ∉ h.retired)).length ≤ h.issued.length :=
        List.length_filter_le _ _
      have h2 : h.issued.length = 1 := by
        have := congrArg List.length hi.seqs
        rw [List.length_map, List.length_reverse, List.length_range, hn] at this
        exact this
      have := hi.lim.1
      have : [(⟨h.m.next, cid⟩ : LEntry)].length = 1 := rfl
      omega
    · intro e he
      exact List.mem_cons_of_mem _ (hi.lostI e he)
    · intro e he
      exact List.mem_cons_of_mem _ (hi.outI e he)
    · intro e he
      exact List.mem_cons_of_mem _ (hi.sentI e he)
    · intro e he
      rcases List.mem_cons.mp he with rfl | he
      · exact Or.inr (Or.inr (Or.inr (Or.inr List.mem_cons_self)))
      · rcases hi.rel e he with h1 | h1 | h1 | h1 | h1
        · exact Or.inl h1
        · exact Or.inr (Or.inl h1)
        · exact Or.inr (Or.inr (Or.inl h1))
        · exact Or.inr (Or.inr (Or.inr (Or.inl h1)))
        · exact Or.inr (Or.inr (Or.inr (Or.inr (List.mem_cons_of_mem _ h1))))
    · show h.m.next + 1 ≤ 2 ^ 62
      rw [hn]; decide
    · intro q hq
      obtain ⟨h1, h2⟩ := hi.zero q hq
      refine ⟨Nat.lt_succ_of_lt h1, ?_⟩
      rintro ⟨x, hx, hx1, hx2⟩
      rcases List.mem_cons.mp hx with rfl | hx
      · exact absurd hx1 (by show h.m.next ≠ q; omega)
      · exact h2 ⟨x, hx, hx1, hx2⟩
    · exact Nat.le_succ_of_le hi.pos

theorem CInv.addOdcid {h : Hist} (hi : CInv h) (cid : List Nat) :
    CInv { h with m := h.m.addOdcid cid } := by
  have : (h.m.addOdcid cid).active = h.m.active := by
    show (h.m.ids ++ [(⟨seqOdcid, cid⟩ : LEntry)]).filter (fun e => e.seq ≠ seqOdcid) = _
    rw [List.filter_append]
    have : [(⟨seqOdcid, cid⟩ : LEntry)].filter (fun e => e.seq ≠ seqOdcid) = [] := by
      rw [List.filter_cons, if_neg (by simp)]
      rfl
    rw [this, List.append_nil]
    rfl
  exact ⟨hi.seqs, this.trans hi.act, this ▸ hi.cnt, hi.lim, hi.lostI, hi.outI, hi.sentI, hi.rel,
    hi.small, hi.zero, hi.pos⟩

theorem CInv.removeOdcid {h : Hist} (hi : CInv h) : CInv { h with m := h.m.removeOdcid } := by
  have : (h.m.removeOdcid).active = h.m.active := by
    show (h.m.ids.filter (fun e => e.seq ≠ seqOdcid)).filter (fun e => e.seq ≠ seqOdcid) = _
    rw [List.filter_filter]
    unfold Mgr.active
    congr 1
    funext e
    rw [Bool.and_self]
  exact ⟨hi.seqs, this.trans hi.act, this ▸ hi.cnt, hi.lim, hi.lostI, hi.outI, hi.sentI, hi.rel,
    hi.small, hi.zero, hi.pos⟩

theorem CInv.setLimit {h h' : Hist} (hi : CInv h) {n : Nat} (hl : h.Legal (.setLimit n))
    (hs : h.step (.setLimit n) = .ok h') : CInv h' := by
  obtain ⟨h2, hlim⟩ := hl
  have hs : (h.m.setLimit n >>= fun m => (.ok { h with m } : Except Err Hist)) = .ok h' := hs
  unfold Mgr.setLimit at hs
  rw [if_neg (by omega)] at hs
  obtain rfl := Except.ok.inj hs
  have h8 : Neqo.Path.activeLimit = 8 := rfl
  refine ⟨hi.seqs, hi.act, ?_, ?_, hi.lostI, hi.outI, hi.sentI, hi.rel, hi.small, hi.zero, hi.pos⟩
  · show h.m.active.length ≤ min Neqo.Path.activeLimit n
    have := hi.cnt
    omega
  · show 2 ≤ min Neqo.Path.activeLimit n ∧ min Neqo.Path.activeLimit n ≤ 8
    omega

theorem CInv.retire {h h' : Hist} (hi : CInv h) {q : Nat}
    (hs : h.step (.retire q) = .ok h') : CInv h' := by
  have hs : (h.m.retire q >>= fun m => (.ok { h with
    m, retired := if h.zeroLength q then h.retired else q :: h.retired } : Except Err Hist)) = .ok h' := hs
  unfold Mgr.retire at hs
  by_cases hq : h.m.next ≤ q
  · rw [if_pos hq] at hs; cases hs
  rw [if_neg hq] at hs
  have hq' : q < h.m.next := by omega
  have hse : q ≠ Neqo.Path.seqEmpty := by
    have := hi.small
    unfold Neqo.Path.seqEmpty
    omega
  by_cases hz : h.zeroLength q
  · rw [if_pos (Or.inr ((hi.zero_iff hq').mpr hz))] at hs
    obtain rfl := Except.ok.inj hs
    rw [if_pos hz]
    exact ⟨hi.seqs, hi.act, hi.cnt, hi.lim, hi.lostI, hi.outI, hi.sentI, hi.rel, hi.small, hi.zero, hi.pos⟩
  · have hcond : ¬ (q = Neqo.Path.seqEmpty ∨
        h.m.ids.any (fun e => e.seq = q && e.cid = []) = true) := by
      rintro (h1 | h1)
      · exact hse h1
      · exact hz ((hi.zero_iff hq').mp h1)
    rw [if_neg hcond] at hs
    obtain rfl := Except.ok.inj hs
    rw [if_neg hz]
    have hact : (h.m.ids.filter (fun e => e.seq ≠ q)).filter (fun e => e.seq ≠ seqOdcid) =
        h.m.active.filter (fun e => e.seq ≠ q) := by
      unfold Mgr.active
      rw [List.filter_filter, List.filter_filter]
      congr 1
      funext e
      rw [Bool.and_comm]
    refine ⟨hi.seqs, ?_, ?_, hi.lim, ?_, hi.outI, hi.sentI, ?_, hi.small, ?_, hi.pos⟩
    · show (h.m.ids.filter (fun e => e.seq ≠ q)).filter (fun e => e.seq ≠ seqOdcid) =
        ((h.issued.filter (fun e => e.seq ∉ q :: h.retired)).reverse).map toL
      rw [hact, hi.act, List.filter_map, List.filter_reverse, List.filter_filter]
      congr 3
      funext e
      show (decide (e.seq ≠ q) && decide (e.seq ∉ h.retired)) = decide (e.seq ∉ q :: h.retired)
      rw [← Bool.decide_and]
      congr 1
      rw [List.mem_cons, not_or]
    · show ((h.m.ids.filter (fun e => e.seq ≠ q)).filter (fun e => e.seq ≠ seqOdcid)).length ≤ h.m.limit
      rw [hact]
      exact Nat.le_trans (List.length_filter_le _ _) hi.cnt
    · intro e he
      exact hi.lostI e (List.mem_filter.mp he).1
    · intro e he
      by_cases hqe : e.seq = q
      · exact Or.inr (Or.inr (Or.inr (Or.inl (hqe ▸ List.mem_cons_self))))
      · rcases hi.rel e he with h1 | h1 | h1 | h1 | h1
        · exact Or.inl (List.mem_filter.mpr ⟨h1, decide_eq_true hqe⟩)
        · exact Or.inr (Or.inl h1)
        · exact Or.inr (Or.inr (Or.inl h1))
        · exact Or.inr (Or.inr (Or.inr (Or.inl (List.mem_cons_of_mem _ h1))))
        · exact Or.inr (Or.inr (Or.inr (Or.inr h1)))
    · intro x hx
      rcases List.mem_cons.mp hx with rfl | hx
      · exact ⟨hq', hz⟩
      · exact hi.zero x hx

/-- What writing does to a history. -/
structure WriteOk (h : Hist) (room : Nat) (w : Written) (new : List Entry) : Prop where
  frames : w.frames = w.tokens
  tokens : ∃ old, w.tokens = old ++ new ∧ old ++ w.mgr.lost = h.m.lost
  mgr : w.mgr = { h.m with ids := h.m.ids ++ new.map toL, next := h.m.next + new.length,
                           lost := w.mgr.lost }
  seqs : new.map (·.seq) = List.range' h.m.next new.length
  fits : new = [] ∨ h.m.ids.length + new.length ≤ h.m.limit
  full : h.m.emptyCids = false → h.m.lost = [] →
    h.m.limit ≤ h.m.ids.length + new.length ∨ room < 47 * (new.length + 1)
  lens : ∀ e ∈ new, e.cid ≠ []

theorem writeFrames_ok {h : Hist} (hi : CInv h) {room : Nat} {gen : List (Option (List Nat × Nat))}
    (hl : h.Legal (.write room gen)) :
    (∀ w, h.m.writeFrames room gen = .ok w → ∃ new, WriteOk h room w new ∧ new.length ≤ gen.length) ∧
    (∀ x, h.m.writeFrames room gen = .error x → x = .running ∧
      (gen.filter (fun a => a.isSome)).length < h.m.limit - h.m.ids.length) := by
  obtain ⟨hn, hg⟩ := hl
  unfold Mgr.writeFrames
  by_cases he : h.m.emptyCids = true
  · rw [if_pos he]
    refine ⟨fun w hw => ?_, fun x hx => (by cases hx)⟩
    obtain rfl := Except.ok.inj hw
    refine ⟨[], ⟨rfl, ⟨[], rfl, rfl⟩, ?_, rfl, Or.inl rfl, ?_, fun e he => (by cases he)⟩, Nat.zero_le _⟩
    · simp
    · intro h1; rw [he] at h1; cases h1
  · rw [if_neg he]
    obtain ⟨w, r, k, h1, h2, h3⟩ := writeLost_ok (room := room) (l := h.m.lost)
      (fun e he => Nat.lt_of_lt_of_le (hi.lt (hi.lostI e he)) hi.small)
    rw [h1]
    dsimp only
    obtain ⟨h4, h5⟩ := writeNew_ok (m := { h.m with lost := k }) (room := r) (gen := gen) hn hg
    have hlen : ∀ (m : Mgr) (room : Nat) (gen : List (Option (List Nat × Nat))) v,
        writeNew m room gen = .ok v → v.tokens.length ≤ gen.length := by
      intro m room gen
      induction gen generalizing m room with
      | nil =>
        intro v hv
        rw [writeNew] at hv
        split at hv
        · cases hv
        · obtain rfl := Except.ok.inj hv; exact Nat.le_refl _
      | cons a l ih =>
        intro v hv
        rw [writeNew_cons] at hv
        split at hv
        · cases a with
          | none => exact Nat.le_succ_of_le (ih _ _ _ hv)
          | some x =>
            dsimp only at hv
            split at hv
            · cases hv
            · split at hv
              · cases hv
              · split at hv
                · cases hv
                · rename_i u hu
                  obtain rfl := Except.ok.inj hv
                  exact Nat.succ_le_succ (ih _ _ _ hu)
        · obtain rfl := Except.ok.inj hv; exact Nat.zero_le _
    cases hw : writeNew { h.m with lost := k } r gen with
    | error y =>
      refine ⟨fun w hw => (by cases hw), fun x hx => ?_⟩
      obtain rfl := Except.error.inj hx
      exact h5 _ hw
    | ok v =>
      refine ⟨fun w' hw' => ?_, fun x hx => (by cases hx)⟩
      obtain rfl := Except.ok.inj hw'
      have kk := h4 v hw
      have hlost : v.mgr.lost = k := by rw [kk.mgr]
      refine ⟨v.tokens, ⟨?_, ⟨w, rfl, ?_⟩, ?_, kk.seqs, kk.fits, ?_, kk.lens⟩, hlen _ _ _ _ hw⟩
      · show w ++ v.frames = w ++ v.tokens
        rw [kk.frames]
      · show w ++ v.mgr.lost = h.m.lost
        rw [hlost]; exact h2
      · dsimp only
        rw [hlost]
        exact kk.mgr
      · intro _ hlost0
        rw [hlost0, writeLost] at h1
        have h1 := Except.ok.inj h1
        have hr : r = room := (congrArg (fun x => x.2.1) h1).symm
        rw [← hr]
        exact kk.full

theorem CInv.write {h h' : Hist} (hi : CInv h) {room : Nat} {gen : List (Option (List Nat × Nat))}
    (hl : h.Legal (.write room gen)) (hs : h.step (.write room gen) = .ok h') : CInv h' := by
  have hs : (h.m.writeFrames room gen >>= fun w => (.ok { h with
      m := w.mgr
      issued := (w.tokens.filter (fun e => h.m.next ≤ e.seq)).reverse ++ h.issued
      sent := w.frames.reverse ++ h.sent
      out := w.tokens.reverse ++ h.out } : Except Err Hist)) = .ok h' := hs
  cases hw : h.m.writeFrames room gen with
  | error x => rw [hw] at hs; cases hs
  | ok w =>
    rw [hw] at hs
    obtain rfl := Except.ok.inj hs
    obtain ⟨new, k, hlen⟩ := (writeFrames_ok hi hl).1 w hw
    obtain ⟨old, ht, hold⟩ := k.tokens
    have holdI : ∀ e ∈ old, e ∈ h.issued := fun e he =>
      hi.lostI e (hold ▸ List.mem_append.mpr (Or.inl he))
    have hnew : ∀ e ∈ new, h.m.next ≤ e.seq ∧ e.seq < h.m.next + new.length := by
      intro e he
      have : e.seq ∈ new.map (·.seq) := List.mem_map.mpr ⟨e, he, rfl⟩
      rw [k.seqs, List.mem_range'_1] at this
      exact this
    have hfil : w.tokens.filter (fun e => h.m.next ≤ e.seq) = new := by
      rw [ht, List.filter_append]
      have h1 : old.filter (fun e => decide (h.m.next ≤ e.seq)) = [] := by
        rw [List.filter_eq_nil_iff]
        intro e he
        have := hi.lt (holdI e he)
        simp only [decide_eq_true_eq]
        omega
      have h2 : new.filter (fun e => decide (h.m.next ≤ e.seq)) = new := by
        rw [List.filter_eq_self]
        intro e he
        exact decide_eq_true (hnew e he).1
      rw [h1, h2]; rfl
    have hnext : w.mgr.next = h.m.next + new.length := by rw [k.mgr]
    have hlim : w.mgr.limit = h.m.limit := by rw [k.mgr]
    have hids : w.mgr.ids = h.m.ids ++ new.map toL := by rw [k.mgr]
    have hsmall : h.m.next + new.length ≤ 2 ^ 62 := by
      have := hl.1
      omega
    have hact : w.mgr.active = h.m.active ++ new.map toL := by
      unfold Mgr.active
      rw [hids, List.filter_append]
      congr 1
      rw [List.filter_eq_self]
      intro e he
      obtain ⟨x, hx, rfl⟩ := List.mem_map.mp he
      have := hnew x hx
      refine decide_eq_true ?_
      show x.seq ≠ seqOdcid
      unfold seqOdcid
      omega
    have hnr : ∀ e ∈ new, e.seq ∉ h.retired := by
      intro e he hr
      have := (hi.zero _ hr).1
      have := (hnew e he).1
      omega
    refine ⟨?_, ?_, ?_, ?_, ?_, ?_, ?_, ?_, ?_, ?_, ?_⟩
    · show ((w.tokens.filter _).reverse ++ h.issued).map (·.seq) = (List.range w.mgr.next).reverse
      rw [hfil, hnext, List.map_append, hi.seqs, List.map_reverse, k.seqs, ← List.reverse_append]
      congr 1
      rw [List.range_eq_range', List.range_eq_range']
      have := List.range'_append (s := 0) (m := h.m.next) (n := new.length) (step := 1)
      rw [Nat.one_mul, Nat.zero_add] at this
      exact this
    · show w.mgr.active = ((((w.tokens.filter _).reverse ++ h.issued).filter _).reverse).map toL
      rw [hfil, hact, List.filter_append, List.reverse_append, List.map_append, hi.act]
      congr 1
      rw [List.filter_reverse, List.reverse_reverse]
      have : new.filter (fun e => decide (e.seq ∉ h.retired)) = new := by
        rw [List.filter_eq_self]
        intro e he
        exact decide_eq_true (hnr e he)
      rw [this]
    · show w.mgr.active.length ≤ w.mgr.limit
      rw [hlim, hact, List.length_append, List.length_map]
      have h1 : h.m.active.length ≤ h.m.ids.length := List.length_filter_le _ _
      have h2 := hi.cnt
      rcases k.fits with h3 | h3
      · rw [h3]; exact h2
      · omega
    · show 2 ≤ w.mgr.limit ∧ w.mgr.limit ≤ 8
      rw [hlim]; exact hi.lim
    · intro e he
      exact List.mem_append.mpr (Or.inr (hi.lostI e (hold ▸ List.mem_append.mpr (Or.inr he))))
    · intro e he
      show e ∈ (w.tokens.filter _).reverse ++ h.issued
      rw [hfil, List.mem_append, List.mem_reverse]
      rcases List.mem_append.mp he with he | he
      · rw [List.mem_reverse, ht, List.mem_append] at he
        rcases he with he | he
        · exact Or.inr (holdI e he)
        · exact Or.inl he
      · exact Or.inr (hi.outI e he)
    · intro e he
      show e ∈ (w.tokens.filter _).reverse ++ h.issued
      rw [hfil, List.mem_append, List.mem_reverse]
      rcases List.mem_append.mp he with he | he
      · rw [List.mem_reverse, k.frames, ht, List.mem_append] at he
        rcases he with he | he
        · exact Or.inr (holdI e he)
        · exact Or.inl he
      · exact Or.inr (hi.sentI e he)
    · intro e he
      have he : e ∈ (w.tokens.filter _).reverse ++ h.issued := he
      rw [hfil, List.mem_append, List.mem_reverse] at he
      show e ∈ w.mgr.lost ∨ e ∈ w.tokens.reverse ++ h.out ∨ _
      rw [List.mem_append, List.mem_reverse, ht, List.mem_append]
      rcases he with he | he
      · exact Or.inr (Or.inl (Or.inl (Or.inr he)))
      · rcases hi.rel e he with h1 | h1 | h1
        · rw [← hold, List.mem_append] at h1
          rcases h1 with h1 | h1
          · exact Or.inr (Or.inl (Or.inl (Or.inl h1)))
          · exact Or.inl h1
        · exact Or.inr (Or.inl (Or.inr h1))
        · exact Or.inr (Or.inr h1)
    · show w.mgr.next ≤ 2 ^ 62
      rw [hnext]; exact hsmall
    · intro q hq
      obtain ⟨h1, h2⟩ := hi.zero q hq
      refine ⟨?_, ?_⟩
      · show q < w.mgr.next
        rw [hnext]; omega
      · rintro ⟨x, hx, hx1, hx2⟩
        have hx : x ∈ (w.tokens.filter _).reverse ++ h.issued := hx
        rw [hfil, List.mem_append, List.mem_reverse] at hx
        rcases hx with hx | hx
        · exact k.lens x hx hx2
        · exact h2 ⟨x, hx, hx1, hx2⟩
    · show 1 ≤ w.mgr.next
      rw [hnext]
      have := hi.pos
      omega

theorem CInv.lost {h : Hist} (hi : CInv h) {e : Entry} (he : e ∈ h.out) :
    CInv { h with m := h.m.onLost e, out := h.out.erase e } := by
  refine ⟨hi.seqs, hi.act, hi.cnt, hi.lim, ?_, ?_, hi.sentI, ?_, hi.small, hi.zero, hi.pos⟩
  · intro x hx
    rcases List.mem_cons.mp hx with rfl | hx
    · exact hi.outI _ he
    · exact hi.lostI x hx
  · intro x hx
    exact hi.outI x (List.mem_of_mem_erase hx)
  · intro x hx
    by_cases hxe : x = e
    · exact Or.inl (hxe ▸ List.mem_cons_self)
    · rcases hi.rel x hx with h1 | h1 | h1
      · exact Or.inl (List.mem_cons_of_mem _ h1)
      · exact Or.inr (Or.inl ((List.mem_erase_of_ne hxe).mpr h1))
      · exact Or.inr (Or.inr h1)

theorem CInv.acked {h : Hist} (hi : CInv h) {e : Entry} :
    CInv { h with m := h.m.onAcked e, out := h.out.erase e, acked := e.seq :: h.acked } := by
  refine ⟨hi.seqs, hi.act, hi.cnt, hi.lim, ?_, ?_, hi.sentI, ?_, hi.small, hi.zero, hi.pos⟩
  · intro x hx
    exact hi.lostI x (List.mem_filter.mp hx).1
  · intro x hx
    exact hi.outI x (List.mem_of_mem_erase hx)
  · intro x hx
    by_cases hxe : x.seq = e.seq
    · exact Or.inr (Or.inr (Or.inl (hxe ▸ List.mem_cons_self)))
    · have hne : x ≠ e := fun h => hxe (by rw [h])
      rcases hi.rel x hx with h1 | h1 | h1 | h1
      · exact Or.inl (List.mem_filter.mpr ⟨h1, decide_eq_true hxe⟩)
      · exact Or.inr (Or.inl ((List.mem_erase_of_ne hne).mpr h1))
      · exact Or.inr (Or.inr (Or.inl (List.mem_cons_of_mem _ h1)))
      · exact Or.inr (Or.inr (Or.inr h1))

theorem CInv.step {h h' : Hist} {e : Ev} (hi : CInv h) (hl : h.Legal e) (hs : h.step e = .ok h') :
    CInv h' := by
  cases e with
  | preferred a => exact hi.preferred hl hs
  | addOdcid cid => obtain rfl := Except.ok.inj hs; exact hi.addOdcid cid
  | removeOdcid => obtain rfl := Except.ok.inj hs; exact hi.removeOdcid
  | setLimit n => exact hi.setLimit hl hs
  | retire q => exact hi.retire hs
  | write room gen => exact hi.write hl hs
  | lost e => obtain rfl := Except.ok.inj hs; exact hi.lost hl
  | acked e => obtain rfl := Except.ok.inj hs; exact hi.acked

theorem Hist.Reached.inv {initial : List Nat} {emptyCids : Bool} {h : Hist}
    (hr : Reached initial emptyCids h) : CInv h := by
  induction hr with
  | init => exact .init _ _
  | step _ hl hs ih => exact ih.step hl hs

end Neqo.Cid
