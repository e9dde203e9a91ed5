import Verif.Qpack.SysInv

/-! # Every operation of an encoder and a decoder preserves the invariant -/
namespace Neqo.Qp
open Neqo.Codec

theorem ackTo_reqOf (a : Nat) (need : List (Nat × Field)) : ackTo a (need.map Prod.fst) = max a (reqOf need) := by
  induction need generalizing a with
  | nil => rw [reqOf_nil, Nat.max_zero]; rfl
  | cons x l ih =>
    have hs : ackTo a ((x :: l).map Prod.fst) = ackTo (if a ≤ x.1 then x.1 + 1 else a) (l.map Prod.fst) := rfl
    rw [hs, ih, reqOf_cons]
    split <;> omega

/-- There is a state with the invariant. -/
def Inv (S : Sys) : Prop := ∃ blocks N I P Q, InvAt S blocks N I P Q

section
variable {S : Sys} {blocks : Nat → List Block} {N : Nat → Prop} {I P : List EncInstr} {Q : List DecInstr}

theorem InvAt.later (h : InvAt S blocks N I P Q) : Later S.dec.table S.enc.table.plain := (later_run h.dec h.run).2.1

theorem InvAt.bases (h : InvAt S blocks N I P Q) : S.dec.table.base ≤ S.enc.table.base := h.later.base

theorem InvAt.acked (h : InvAt S blocks N I P Q) : S.enc.acked ≤ S.dec.table.base := le_trans h.sim.mono h.inserts

theorem mem_pending {l : List Block} {b : Block} (hb : b ∈ l) (hn : b.need ≠ []) : b.need.map Prod.fst ∈ pending l := by
  unfold pending
  refine List.mem_map.mpr ⟨b, List.mem_filter.mpr ⟨hb, ?_⟩, rfl⟩
  cases h : b.need
  · exact absurd h hn
  · rfl

/-- The encoder holds on to the entries of a block that was not cancelled. -/
theorem InvAt.held (h : InvAt S blocks N I P Q) {s : Nat} (hs : ¬ N s) {b : Block} (hb : b ∈ blocks s) {x : Nat × Field}
    (hx : x ∈ b.need) : b.need.map Prod.fst ∈ S.enc.unacked.get s ∧ 0 < S.enc.unacked.cnt x.1 := by
  have hn : b.need ≠ [] := by intro hc; rw [hc] at hx; cases hx
  obtain ⟨l, hl⟩ := h.sim.suffix hs
  have hm : b.need.map Prod.fst ∈ S.enc.unacked.get s := by
    rw [hl]; exact List.mem_append.mpr (Or.inr (mem_pending hb hn))
  exact ⟨hm, (cnt_pos h.enc.unacked).mpr ⟨s, _, hm, List.mem_map.mpr ⟨x, hx, rfl⟩⟩⟩

theorem InvAt.capLe (h : InvAt S blocks N I P Q) : S.enc.table.capacity ≤ S.dec.maxTableSize := by
  rcases h.cap with hc | hc <;> omega

/-- The table has no more entries than fit. -/
theorem few {t : Table} (ht : t.WF) : t.base ≤ t.dropped + t.capacity / 32 := by
  have h1 := ht.used
  have h2 := ht.fits
  have h3 : 32 * t.dyn.length ≤ total t.dyn := by
    unfold total
    clear h1 h2
    generalize t.dyn = l
    induction l with
    | nil => simp
    | cons e l ih =>
      have : 32 ≤ e.size := by unfold DEntry.size entryOverhead; omega
      simp only [List.map_cons, List.sum_cons, List.length_cons]
      omega
  unfold Table.dropped
  omega

theorem has_base {t : Table} (ht : t.WF) {x : Nat × Field} (h : t.Has x) : t.dropped ≤ x.1 ∧ x.1 < t.base := by
  obtain ⟨d, h1, -⟩ := h
  obtain ⟨g1, g2⟩ := (at_iff ht).mp h1
  have := (List.getElem?_eq_some_iff.mp g2).1
  have := ht.len
  unfold Table.dropped at *
  omega

/-- A block that was not cancelled is decoded, or waits if it needs inserts that did not arrive. -/
theorem InvAt.decode (h : InvAt S blocks N I P Q) {s : Nat} (hs : ¬ N s) {b : Block} (hb : b ∈ blocks s) :
    decodeBlock S.dec.table S.dec.maxEntries b.bytes =
      if S.dec.table.base < reqOf b.need then .ok (.blocked (reqOf b.need)) else .ok (.headers (reqOf b.need) b.fields) := by
  have hsm := h.small
  have hcl := h.capLe
  have hbs := h.bases
  have hba := h.base
  have hen := h.entries
  refine (h.ok s b hb).decode (by rw [hen]; omega) h.dec (by omega) ?_ ?_
  · intro hn
    obtain ⟨x, hx, hr⟩ := reqOf_mem hn
    have hh := has_base h.enc.table (h.has s hs b hb x hx)
    have hf := few h.enc.table
    have ho := h.enc.old
    have hac := h.acked
    have : S.enc.table.capacity / 32 ≤ S.dec.maxEntries := by rw [hen]; exact Nat.div_le_div_right hcl
    omega
  · intro hr x hx
    have hh := h.has s hs b hb x hx
    obtain ⟨d, hd1, hd2⟩ := hh
    have hp : S.enc.table.plain.at x.1 = some d.plain := by rw [plain_at, hd1]; rfl
    have := h.later.kept _ _ hp (lt_of_lt_of_le (reqOf_lt hx) hr)
    exact ⟨d.plain, this, hd2⟩

/-- A stream that waits at the decoder is one that the encoder lets wait. -/
theorem InvAt.isBlocking (h : InvAt S blocks N I P Q) {s : Nat} (hs : ¬ N s) {b : Block} (hb : b ∈ blocks s)
    (hr : S.dec.table.base < reqOf b.need) : blocking S.enc.acked (S.enc.unacked.get s) = true := by
  have hn : b.need ≠ [] := by intro hc; rw [hc, reqOf_nil] at hr; omega
  obtain ⟨x, hx, he⟩ := reqOf_mem hn
  have hac := h.acked
  exact blocking_true.mpr ⟨_, (h.held hs hb hx).1, x.1, List.mem_map.mpr ⟨x, hx, rfl⟩, by omega⟩

theorem InvAt.settings (h : InvAt S blocks N I P Q) : ∃ S', S.step .settings = .ok S' ∧ InvAt S' blocks N I P Q := by
  have hsm := h.small
  have key : ∃ e, S.enc.setMaxCapacity S.dec.maxTableSize = .ok e ∧ (e = S.enc ∨ e = { S.enc with nextCapacity := some S.dec.maxTableSize }) := by
    unfold Enc.setMaxCapacity
    rw [if_neg (by omega)]
    split
    · exact ⟨_, rfl, Or.inl rfl⟩
    · exact ⟨_, rfl, Or.inr (by rw [Nat.min_eq_right h.limit])⟩
  obtain ⟨e, h1, h2⟩ := key
  have hb := h.blocked
  have hmb := h.maxBlocked
  have hb16 := h.blocked16
  have h3 : e.setMaxBlocked S.dec.maxBlocked = .ok { e with maxBlocked := S.dec.maxBlocked } := by
    unfold Enc.setMaxBlocked; rw [if_pos hb16]
  refine ⟨{ S with enc := { e with maxBlocked := S.dec.maxBlocked } }, ?_, ?_⟩
  · unfold Sys.step; simp only [h1, h3]
  · have hbb : S.enc.blockedCnt ≤ S.dec.maxBlocked := le_trans hb hmb
    rcases h2 with rfl | rfl
    · exact { h with
        enc := ⟨h.enc.table, h.enc.acked, h.enc.unacked, h.enc.refs, h.enc.held, h.enc.blocked, h.enc.entries, h.enc.old⟩
        blocked := hbb
        maxBlocked := Nat.le_refl _ }
    · exact { h with
        enc := ⟨h.enc.table, h.enc.acked, h.enc.unacked, h.enc.refs, h.enc.held, h.enc.blocked, h.enc.entries, h.enc.old⟩
        blocked := hbb
        maxBlocked := Nat.le_refl _
        next := by intro c hc; exact (Option.some.inj hc).symm }

theorem InvAt.stream (h : InvAt S blocks N I P Q) (hs : S.enc.stream = .noStream) :
    ∃ S', S.step .stream = .ok S' ∧ InvAt S' blocks N I P Q := by
  refine ⟨{ S with enc := { S.enc with stream := .uninitialized } }, ?_, ?_⟩
  · unfold Sys.step Enc.addSendStream; simp only [hs, if_true]
  · exact { h with enc := ⟨h.enc.table, h.enc.acked, h.enc.unacked, h.enc.refs, h.enc.held, h.enc.blocked, h.enc.entries, h.enc.old⟩ }

theorem InvAt.nextOk (h : InvAt S blocks N I P Q) : ∀ c ∈ S.enc.nextCapacity, c ≤ S.dec.maxTableSize ∧ c < 2 ^ 64 := by
  intro c hc
  have := h.next c hc
  have := h.small
  omega

theorem InvAt.sentCap (h : InvAt S blocks N I P Q) {e' : Enc} {is : List EncInstr} {out : Bytes}
    (hs : Sent S.dec.maxTableSize S.enc e' is out) :
    (e'.table.capacity = 0 ∨ e'.table.capacity = S.dec.maxTableSize) ∧ ∀ c ∈ e'.nextCapacity, c = S.dec.maxTableSize := by
  rcases hs.next with ⟨h1, h2⟩ | ⟨h1, h2⟩
  · rw [h1, h2]; exact ⟨h.cap, h.next⟩
  · exact ⟨Or.inr (h.next _ h2), by rw [h1]; simp⟩

theorem InvAt.updates (h : InvAt S blocks N I P Q) (room : Nat) :
    ∃ S' P', S.step (.updates room) = .ok S' ∧ InvAt S' blocks N I P' Q ∧ ∃ is, P' = P ++ is := by
  obtain ⟨b, w', is, h1, h2, h3, h4, h5⟩ := sendUpdates_ok (m := S.dec.maxTableSize) h.enc h.nextOk room
  obtain ⟨hc1, hc2⟩ := h.sentCap h2
  refine ⟨{ S with enc := w'.enc, toDec := S.toDec ++ w'.out }, P ++ is, ?_, ?_, is, rfl⟩
  · unfold Sys.step; simp only [h1]
  · exact { h with
      enc := h2.wf
      toDec := h2.writes.1 _ _ _ h.toDec
      run := by rw [runAll_append, h.run]; exact h2.run
      caps := by
        intro c hc
        rw [← List.append_assoc] at hc
        rcases List.mem_append.mp hc with hc | hc
        · exact h.caps c hc
        · exact h.next c (h2.writes.2 c hc)
      toEnc := by show Holds _ _ w'.enc.reader _ _; rw [h2.reader]; exact h.toEnc
      sim := by show Sim w'.enc.acked w'.enc.unacked.get _ _ _ _; rw [h2.acked, h3]; exact h.sim
      has := fun s hs b hb x hx => h2.kept x (h.held hs hb hx).2 (h.has s hs b hb x hx)
      limit := by show _ ≤ w'.enc.maxTableSize; rw [h2.maxTableSize]; exact h.limit
      cap := hc1
      next := hc2
      base := by show w'.enc.table.base < _; rw [h4]; exact h.base
      blocked := by show w'.enc.blockedCnt ≤ w'.enc.maxBlocked; rw [h5, h2.maxBlocked]; exact h.blocked
      tracked := by show w'.enc.unacked.length ≤ w'.enc.maxTracked; rw [h3, h2.maxTracked]; exact h.tracked
      maxBlocked := by show w'.enc.maxBlocked ≤ _; rw [h2.maxBlocked]; exact h.maxBlocked }

theorem no_entries {t : Table} (ht : t.WF) (hc : t.capacity = 0) {x : Nat × Field} (h : t.Has x) : False := by
  have h1 := has_base ht h
  have h2 := few ht
  rw [hc] at h2
  omega

theorem InvAt.encode (h : InvAt S blocks N I P Q) {room s : Nat} {fs : List Field} (ho : (Op.encode room s fs).Ok S) :
    ∃ S' blocks' P', S.step (.encode room s fs) = .ok S' ∧ InvAt S' blocks' N I P' Q ∧ ∃ is, P' = P ++ is := by
  obtain ⟨o1, o2, o3, o4⟩ := ho
  obtain ⟨b, w', need, is, h1, h2, h3, h4, h5, h6, h7, h8, h9⟩ := encode_ok (m := S.dec.maxTableSize) h.enc h.nextOk room s o2 o3 o4
  obtain ⟨hc1, hc2⟩ := h.sentCap h2
  have hen := h.entries
  have hbok : Block.Ok S.dec.maxEntries ⟨b, need, fs⟩ := by
    rcases hc1 with hc | hc
    · have hn : need = [] := by
        cases need with
        | nil => rfl
        | cons x l => exact (no_entries h2.wf.table hc (h4 x (by simp))).elim
      subst hn
      obtain ⟨base, buf, g1, g2, g3, g4⟩ := h3.bytes
      exact ⟨h3.size, base, buf, g1, g2, g3, g4⟩
    · have := h2.wf.entries
      rw [hc] at this
      rw [hen, ← this]; exact h3
  have hget : Sim w'.enc.acked w'.enc.unacked.get Q S.dec.ackedInserts N
      (fun j => pending (upd blocks s (blocks s ++ [⟨b, need, fs⟩]) j)) := by
    rw [h2.acked, h6]
    by_cases hn : need = []
    · rw [if_pos hn]
      refine h.sim.congr (fun j _ => ?_)
      by_cases hj : j = s
      · rw [hj, upd_same, pending_append, pending_one, if_pos hn, List.append_nil]
      · rw [upd_other _ _ hj]
    · rw [if_neg hn]
      have := h.sim.push s (need.map Prod.fst)
      have hu : (S.enc.unacked.push s (need.map Prod.fst)).get = upd S.enc.unacked.get s (S.enc.unacked.get s ++ [need.map Prod.fst]) := by
        funext j; rw [get_push]; rfl
      rw [hu]
      refine this.congr (fun j _ => ?_)
      by_cases hj : j = s
      · rw [hj, upd_same, upd_same, pending_append, pending_one, if_neg hn]
      · rw [upd_other _ _ hj, upd_other _ _ hj]
  have hmem : ∀ {j : Nat} {c : Block}, c ∈ upd blocks s (blocks s ++ [⟨b, need, fs⟩]) j →
      c ∈ blocks j ∨ (j = s ∧ c = ⟨b, need, fs⟩) := by
    intro j c hc
    by_cases hj : j = s
    · rw [hj, upd_same] at hc
      rcases List.mem_append.mp hc with hc | hc
      · exact Or.inl (by rw [hj]; exact hc)
      · exact Or.inr ⟨hj, by simpa using hc⟩
    · rw [upd_other _ _ hj] at hc; exact Or.inl hc
  refine ⟨{ S with
      enc := w'.enc, toDec := S.toDec ++ w'.out, queue := upd S.queue s (S.queue s ++ [(b, fs)])
      sent := upd S.sent s (S.sent s ++ [fs]) }, upd blocks s (blocks s ++ [⟨b, need, fs⟩]), P ++ is, ?_, ?_, is, rfl⟩
  · unfold Sys.step; simp only [h1]
  · exact { h with
      enc := h2.wf
      queue := by
        intro j
        show _ = upd S.queue s _ j
        by_cases hj : j = s
        · rw [hj, upd_same, upd_same, List.map_append, h.queue]; rfl
        · rw [upd_other _ _ hj, upd_other _ _ hj]; exact h.queue j
      toDec := h2.writes.1 _ _ _ h.toDec
      run := by rw [runAll_append, h.run]; exact h2.run
      caps := by
        intro c hc
        rw [← List.append_assoc] at hc
        rcases List.mem_append.mp hc with hc | hc
        · exact h.caps c hc
        · exact h.next c (h2.writes.2 c hc)
      toEnc := by show Holds _ _ w'.enc.reader _ _; rw [h2.reader]; exact h.toEnc
      sim := hget
      ok := by
        intro j c hc
        rcases hmem hc with hc | ⟨-, rfl⟩
        · exact h.ok j c hc
        · exact hbok
      has := by
        intro j hj c hc x hx
        rcases hmem hc with hc | ⟨-, rfl⟩
        · exact h2.kept x (h.held hj hc hx).2 (h.has j hj c hc x hx)
        · exact h4 x hx
      waiting := by
        intro x hx
        obtain ⟨g1, g2, c, g3, g4⟩ := h.waiting x hx
        refine ⟨g1, g2, c, ?_, g4⟩
        by_cases hj : x.1 = s
        · rw [hj, upd_same]; rw [hj] at g3; exact List.mem_append_left _ g3
        · rw [upd_other _ _ hj]; exact g3
      limit := by show _ ≤ w'.enc.maxTableSize; rw [h2.maxTableSize]; exact h.limit
      cap := hc1
      next := hc2
      base := by show w'.enc.table.base < _; omega
      blocked := by show w'.enc.blockedCnt ≤ w'.enc.maxBlocked; rw [h2.maxBlocked]; exact h8 h.blocked
      tracked := by show w'.enc.unacked.length ≤ w'.enc.maxTracked; rw [h2.maxTracked]; exact h9 h.tracked
      maxBlocked := by show w'.enc.maxBlocked ≤ _; rw [h2.maxBlocked]; exact h.maxBlocked
      ids := by
        intro j hj
        by_cases hjs : j = s
        · rw [hjs]; exact o1
        · rw [upd_other _ _ hjs] at hj; exact h.ids j hj
      order := by
        intro j
        show S.delivered j ++ (upd S.queue s _ j).map Prod.snd = upd S.sent s _ j
        by_cases hj : j = s
        · rw [hj, upd_same, upd_same, List.map_append, ← List.append_assoc, h.order]; rfl
        · rw [upd_other _ _ hj, upd_other _ _ hj]; exact h.order j }

theorem InvAt.toDecoder (h : InvAt S blocks N I P Q) (n : Nat) :
    ∃ S' I' P', S.step (.toDecoder n) = .ok S' ∧ InvAt S' blocks N I' P' Q ∧ I' ++ P' = I ++ P := by
  have hd := h.toDec
  rw [← List.take_append_drop n S.toDec] at hd
  obtain ⟨r, is1, is2, q1, q2, q3⟩ := hd.split enc_framing
  have hrun := h.run
  rw [q1, runAll_append] at hrun
  cases hr : runAll (execTable S.dec.maxTableSize) S.dec.table is1 with
  | error e => rw [hr] at hrun; cases hrun
  | ok t =>
    rw [hr] at hrun
    obtain ⟨t1, t2, t3, t4⟩ := later_run h.dec hr
    have hp := q3 (execTable S.dec.maxTableSize) S.dec.table
    rw [hr] at hp
    have hin := h.inserts
    have hb := t2.base
    by_cases hs : t.base = S.dec.table.base
    · refine ⟨{ S with dec := { S.dec with table := t, reader := r }, toDec := S.toDec.drop n }, I ++ is1, is2, ?_, ?_, by rw [q1, List.append_assoc]⟩
      · unfold Sys.step Dec.receive; simp only [hp, hs, if_true]
      · exact { h with
          dec := t1, toDec := q2, run := hrun
          past := by rw [runAll_append, h.past]; exact hr
          caps := by rw [List.append_assoc, ← q1]; exact h.caps
          inserts := le_trans hin hb
          waiting := by
            intro x hx
            obtain ⟨g1, g2⟩ := h.waiting x hx
            exact ⟨by show t.base < _; rw [hs]; exact g1, g2⟩ }
    · refine ⟨{ S with
        dec := { S.dec with table := t, reader := r, blocked := S.dec.blocked.filter (fun x => ¬ x.2 ≤ t.base) }
        toDec := S.toDec.drop n }, I ++ is1, is2, ?_, ?_, by rw [q1, List.append_assoc]⟩
      · unfold Sys.step Dec.receive; simp only [hp, hs, if_false]
      · exact { h with
          dec := t1, toDec := q2, run := hrun
          past := by rw [runAll_append, h.past]; exact hr
          caps := by rw [List.append_assoc, ← q1]; exact h.caps
          inserts := le_trans hin hb
          waiting := by
            intro x hx
            obtain ⟨hx1, hx2⟩ := List.mem_filter.mp hx
            obtain ⟨g1, g2⟩ := h.waiting x hx1
            exact ⟨by show t.base < _; simpa using hx2, g2⟩
          keys := List.Sublist.nodup (List.Sublist.map _ List.filter_sublist) h.keys }

theorem InvAt.toEncoder (h : InvAt S blocks N I P Q) (n : Nat) :
    ∃ S' Q', S.step (.toEncoder n) = .ok S' ∧ InvAt S' blocks N I P Q' := by
  have hd := h.toEnc
  rw [← List.take_append_drop n S.dec.sendBuf] at hd
  obtain ⟨r, is1, is2, q1, q2, q3⟩ := hd.split dec_framing
  have hsim := h.sim
  rw [q1] at hsim
  have hbs := h.bases
  have hin := h.inserts
  have hba := h.base
  obtain ⟨e', g1, g2, g3, g4, g5, g7, g6⟩ := hsim.run h.enc (by omega) (by omega)
  have hp := q3 Enc.exec S.enc
  rw [g1] at hp
  have hcap : e'.table.capacity = S.enc.table.capacity := by
    have := congrArg Table.capacity g4; exact this
  have hbase : e'.table.base = S.enc.table.base := by
    have := congrArg Table.base g4; exact this
  have k1 : e'.maxTableSize = S.enc.maxTableSize := by rw [g6]
  have k2 : e'.nextCapacity = S.enc.nextCapacity := by rw [g6]
  have k3 : e'.maxBlocked = S.enc.maxBlocked := by rw [g6]
  refine ⟨{ S with enc := { e' with reader := r }, dec := { S.dec with sendBuf := S.dec.sendBuf.drop n } }, is2, ?_, ?_⟩
  · unfold Sys.step Enc.receive; simp only [hp]
  · exact { h with
      enc := ⟨g2.table, g2.acked, g2.unacked, g2.refs, g2.held, g2.blocked, g2.entries, g2.old⟩
      run := by show _ = Except.ok e'.table.plain; rw [g4]; exact h.run
      toEnc := q2
      sim := g3
      has := fun s hs b hb x hx => has_plain g4 (h.has s hs b hb x hx)
      limit := by show _ ≤ e'.maxTableSize; rw [k1]; exact h.limit
      cap := by show e'.table.capacity = _ ∨ e'.table.capacity = _; rw [hcap]; exact h.cap
      next := by show ∀ c ∈ e'.nextCapacity, _; rw [k2]; exact h.next
      base := by show e'.table.base < _; rw [hbase]; exact h.base
      blocked := by show e'.blockedCnt ≤ e'.maxBlocked; rw [k3]; exact le_trans g5 h.blocked
      tracked := by
        show e'.unacked.length ≤ e'.maxTracked
        rw [show e'.maxTracked = S.enc.maxTracked by rw [g6]]; exact le_trans g7 h.tracked
      maxBlocked := by show e'.maxBlocked ≤ _; rw [k3]; exact h.maxBlocked }

theorem InvAt.send (h : InvAt S blocks N I P Q) : ∃ S' Q', S.step .send = .ok S' ∧ InvAt S' blocks N I P Q' := by
  have hin := h.inserts
  have hbs := h.bases
  have hba := h.base
  by_cases hn : S.dec.table.base - S.dec.ackedInserts > 0
  · refine ⟨{ S with dec := { S.dec with
        sendBuf := S.dec.sendBuf ++ (DecInstr.increment (S.dec.table.base - S.dec.ackedInserts)).marshal
        ackedInserts := S.dec.table.base } }, Q ++ [.increment (S.dec.table.base - S.dec.ackedInserts)], ?_, ?_⟩
    · unfold Sys.step Dec.send
      simp only [if_neg (show ¬ S.dec.table.base < S.dec.ackedInserts by omega), if_pos hn]
    · have hs := h.sim.sendInc hn
      rw [show S.dec.ackedInserts + (S.dec.table.base - S.dec.ackedInserts) = S.dec.table.base by omega] at hs
      exact { h with
        toEnc := h.toEnc.push dec_framing (dec_read_marshal (i := .increment (S.dec.table.base - S.dec.ackedInserts))
          (show _ < 2 ^ 64 by omega)).2
        sim := hs
        inserts := Nat.le_refl _ }
  · refine ⟨S, Q, ?_, h⟩
    unfold Sys.step Dec.send
    simp only [if_neg (show ¬ S.dec.table.base < S.dec.ackedInserts by omega), if_neg hn]

theorem InvAt.cancel (h : InvAt S blocks N I P Q) {s : Nat} (hs : s < 2 ^ 62) :
    ∃ S' N' Q', S.step (.cancel s) = .ok S' ∧ InvAt S' blocks N' I P Q' := by
  have hgone : ∀ r, N r → upd S.cancelled s true r = true := by
    intro r hr
    by_cases hrs : r = s
    · rw [hrs, upd_same]
    · rw [upd_other _ _ hrs]; exact h.gone r hr
  by_cases hc : S.dec.table.capacity > 0
  · refine ⟨{ S with
      dec := { S.dec with
        blocked := S.dec.blocked.filter (fun x => x.1 ≠ s)
        sendBuf := S.dec.sendBuf ++ (DecInstr.cancel s).marshal }
      cancelled := upd S.cancelled s true }, fun r => N r ∨ r = s, Q ++ [.cancel s], ?_, ?_⟩
    · unfold Sys.step Dec.cancelStream; simp only [if_pos hc]
    · exact { h with
        toEnc := h.toEnc.push dec_framing (dec_read_marshal (i := .cancel s) (show _ < 2 ^ 64 by omega)).2
        sim := h.sim.sendCancel s
        has := fun r hr => h.has r (fun hc => hr (Or.inl hc))
        gone := by
          intro r hr
          rcases hr with hr | hr
          · exact hgone r hr
          · show upd S.cancelled s true r = true
            rw [hr, upd_same]
        waiting := by
          intro x hx
          obtain ⟨hx1, hx2⟩ := List.mem_filter.mp hx
          obtain ⟨g1, g2, g3⟩ := h.waiting x hx1
          refine ⟨g1, ?_, g3⟩
          rintro (hh | hh)
          · exact g2 hh
          · simp [hh] at hx2
        keys := List.Sublist.nodup (List.Sublist.map _ List.filter_sublist) h.keys }
  · refine ⟨{ S with cancelled := upd S.cancelled s true }, N, Q, ?_, ?_⟩
    · unfold Sys.step Dec.cancelStream; simp only [if_neg hc]
    · exact { h with gone := hgone }

/-- Decoding the next block of a stream: it waits if inserts are missing, and otherwise has the fields. -/
theorem InvAt.decodeOp (h : InvAt S blocks N I P Q) (s : Nat) :
    ∃ S' blocks' Q', S.step (.decode s) = .ok S' ∧ InvAt S' blocks' N I P Q' := by
  cases hcan : S.cancelled s with
  | true => exact ⟨S, blocks, Q, by unfold Sys.step; simp only [hcan, if_true], h⟩
  | false =>
    have hN : ¬ N s := by intro hc; have := h.gone s hc; rw [hcan] at this; cases this
    cases hbl : blocks s with
    | nil =>
      have hq := h.queue s
      rw [hbl] at hq
      exact ⟨S, blocks, Q, by unfold Sys.step; simp only [hcan, ← hq, Bool.false_eq_true, if_false, List.map_nil], h⟩
    | cons b rest =>
      have hq := h.queue s
      rw [hbl] at hq
      have hb : b ∈ blocks s := by rw [hbl]; simp
      have hdec := h.decode hN hb
      have hq' : S.queue s = (b.bytes, b.fields) :: rest.map (fun b => (b.bytes, b.fields)) := hq.symm
      by_cases hr : S.dec.table.base < reqOf b.need
      · rw [if_pos hr] at hdec
        by_cases ha : S.dec.blocked.any (fun x => x.1 = s) = true
        · refine ⟨S, blocks, Q, ?_, h⟩
          unfold Sys.step Dec.decode
          simp only [hcan, hq', hdec, ha, Bool.false_eq_true, if_false, if_true]
        · have hnot : s ∉ S.dec.blocked.map Prod.fst := by
            intro hc
            obtain ⟨x, hx, hxs⟩ := List.mem_map.mp hc
            exact ha (List.any_eq_true.mpr ⟨x, hx, by simpa using hxs⟩)
          have hlen := blocked_streams (u := S.enc.unacked) (a := S.enc.acked) (L := s :: S.dec.blocked.map Prod.fst)
            (List.nodup_cons.mpr ⟨hnot, h.keys⟩) (by
              intro r hrm
              rcases List.mem_cons.mp hrm with rfl | hrm
              · exact h.isBlocking hN hb hr
              · obtain ⟨x, hx, rfl⟩ := List.mem_map.mp hrm
                obtain ⟨g1, g2, c, g3, g4, g5⟩ := h.waiting x hx
                exact h.isBlocking g2 g3 (by rw [g5]; exact g1))
          rw [← h.enc.blocked, List.length_cons, List.length_map] at hlen
          have hb1 := h.blocked
          have hb2 := h.maxBlocked
          refine ⟨{ S with dec := { S.dec with blocked := S.dec.blocked ++ [(s, reqOf b.need)] } }, blocks, Q, ?_, ?_⟩
          · unfold Sys.step Dec.decode
            simp only [hcan, hq', hdec, ha, Bool.false_eq_true, if_false, if_neg (show ¬ S.dec.blocked.length ≥ S.dec.maxBlocked by omega)]
          · exact { h with
              waiting := by
                intro x hx
                rcases List.mem_append.mp hx with hx | hx
                · exact h.waiting x hx
                · simp at hx
                  rw [hx]
                  exact ⟨hr, hN, b, hb, by intro hc; rw [hc, reqOf_nil] at hr; omega, rfl⟩
              keys := by
                show ((S.dec.blocked ++ [(s, reqOf b.need)]).map Prod.fst).Nodup
                rw [List.map_append, List.nodup_append]
                refine ⟨h.keys, by simp, ?_⟩
                intro x hx y hy
                simp at hy
                rw [hy]
                intro hxs
                exact hnot (by rw [← hxs]; exact hx) }
      · rw [if_neg hr] at hdec
        have hfresh : ∀ x ∈ S.dec.blocked, x.1 ≠ s ∨ ∃ c ∈ rest, c.need ≠ [] ∧ reqOf c.need = x.2 := by
          intro x hx
          obtain ⟨g1, g2, c, g3, g4, g5⟩ := h.waiting x hx
          by_cases hxs : x.1 = s
          · right
            rw [hxs, hbl] at g3
            rcases List.mem_cons.mp g3 with rfl | g3
            · rw [g5] at hr; exact absurd g1 hr
            · exact ⟨c, g3, g4, g5⟩
          · exact Or.inl hxs
        have hmem : ∀ {j : Nat} {c : Block}, c ∈ upd blocks s rest j → c ∈ blocks j := by
          intro j c hc
          by_cases hj : j = s
          · rw [hj, upd_same] at hc; rw [hj, hbl]; exact List.mem_cons_of_mem _ hc
          · rw [upd_other _ _ hj] at hc; exact hc
        have common : ∀ (d : Dec) (Q' : List DecInstr), d.table = S.dec.table → d.blocked = S.dec.blocked → d.maxEntries = S.dec.maxEntries →
            d.maxTableSize = S.dec.maxTableSize → d.maxBlocked = S.dec.maxBlocked → d.reader = S.dec.reader →
            Holds DecR.read .start S.enc.reader d.sendBuf Q' →
            Sim S.enc.acked S.enc.unacked.get Q' d.ackedInserts N (fun j => pending (upd blocks s rest j)) →
            d.ackedInserts ≤ d.table.base →
            InvAt { S with
              dec := d
              queue := upd S.queue s (rest.map (fun b => (b.bytes, b.fields)))
              delivered := upd S.delivered s (S.delivered s ++ [b.fields]) } (upd blocks s rest) N I P Q' := by
          intro d Q' e1 e2 e3 e4 e5 e6 e7 e8 e9
          exact {
            enc := h.enc
            dec := by show d.table.WF; rw [e1]; exact h.dec
            queue := by
              intro j
              show _ = upd S.queue s _ j
              by_cases hj : j = s
              · rw [hj, upd_same, upd_same]
              · rw [upd_other _ _ hj, upd_other _ _ hj]; exact h.queue j
            toDec := by show Holds _ _ d.reader _ _; rw [e6]; exact h.toDec
            run := by show runAll (execTable d.maxTableSize) d.table P = _; rw [e1, e4]; exact h.run
            past := by show runAll (execTable d.maxTableSize) _ I = .ok d.table; rw [e1, e4]; exact h.past
            caps := by show ∀ c, _ → c = d.maxTableSize; rw [e4]; exact h.caps
            toEnc := e7
            sim := e8
            inserts := e9
            ok := by intro j c hc; show c.Ok d.maxEntries; rw [e3]; exact h.ok j c (hmem hc)
            has := fun j hj c hc => h.has j hj c (hmem hc)
            gone := h.gone
            waiting := by
              intro x hx
              change x ∈ d.blocked at hx
              rw [e2] at hx
              obtain ⟨g1, g2, c, g3, g4⟩ := h.waiting x hx
              refine ⟨by show d.table.base < _; rw [e1]; exact g1, g2, ?_⟩
              rcases hfresh x hx with hf | ⟨c', f1, f2⟩
              · exact ⟨c, by rw [upd_other _ _ hf]; exact g3, g4⟩
              · by_cases hxs : x.1 = s
                · exact ⟨c', by rw [hxs, upd_same]; exact f1, f2⟩
                · exact ⟨c, by rw [upd_other _ _ hxs]; exact g3, g4⟩
            keys := by show (d.blocked.map Prod.fst).Nodup; rw [e2]; exact h.keys
            entries := by show d.maxEntries = d.maxTableSize / 32; rw [e3, e4]; exact h.entries
            small := by show d.maxTableSize ≤ _; rw [e4]; exact h.small
            limit := by show d.maxTableSize ≤ _; rw [e4]; exact h.limit
            cap := by show _ ∨ S.enc.table.capacity = d.maxTableSize; rw [e4]; exact h.cap
            next := by intro c hc; show c = d.maxTableSize; rw [e4]; exact h.next c hc
            base := h.base
            blocked := h.blocked
            tracked := h.tracked
            maxBlocked := by show _ ≤ d.maxBlocked; rw [e5]; exact h.maxBlocked
            blocked16 := by show d.maxBlocked < _; rw [e5]; exact h.blocked16
            ids := by
              intro j hj
              refine h.ids j (fun hc => hj ?_)
              by_cases hjs : j = s
              · rw [hjs, hbl] at hc; cases hc
              · rw [upd_other _ _ hjs]; exact hc
            order := by
              intro j
              show upd S.delivered s _ j ++ (upd S.queue s _ j).map Prod.snd = S.sent j
              by_cases hj : j = s
              · rw [hj, upd_same, upd_same, ← h.order s, hq', List.append_assoc]; rfl
              · rw [upd_other _ _ hj, upd_other _ _ hj]; exact h.order j }
        by_cases hz : reqOf b.need = 0
        · have hn : b.need = [] := by
            cases hn : b.need with
            | nil => rfl
            | cons x l => rw [hn, reqOf_cons] at hz; omega
          refine ⟨_, _, Q, ?_, common S.dec Q rfl rfl rfl rfl rfl rfl h.toEnc ?_ h.inserts⟩
          · unfold Sys.step Dec.decode
            simp only [hcan, hq', hdec, hz, Bool.false_eq_true, if_false, ne_eq, not_true_eq_false]
          · refine h.sim.congr (fun j _ => ?_)
            by_cases hj : j = s
            · rw [hj, upd_same, hbl, pending_cons, pending_one, if_pos hn]; rfl
            · rw [upd_other _ _ hj]
        · have hn : b.need ≠ [] := by intro hc; rw [hc] at hz; exact hz rfl
          have hs62 : s < 2 ^ 62 := h.ids s (by rw [hbl]; simp)
          refine ⟨_, _, Q ++ [.headerAck s], ?_, common (S.dec.headerAck s (reqOf b.need)) _ rfl rfl rfl rfl rfl rfl ?_ ?_ ?_⟩
          · unfold Sys.step Dec.decode
            simp only [hcan, hq', hdec, hz, Bool.false_eq_true, if_false, ne_eq, not_false_eq_true, if_true]
          · exact h.toEnc.push dec_framing (dec_read_marshal (i := .headerAck s) (show _ < 2 ^ 64 by omega)).2
          · have hp : (fun j => pending (blocks j)) s = b.need.map Prod.fst :: pending rest := by
              show pending (blocks s) = _
              rw [hbl, pending_cons, pending_one, if_neg hn]; rfl
            have := h.sim.sendAck hN hp
            rw [ackTo_reqOf] at this
            refine this.congr (fun j _ => ?_)
            by_cases hj : j = s
            · rw [hj, upd_same, upd_same]
            · rw [upd_other _ _ hj, upd_other _ _ hj]
          · show max S.dec.ackedInserts (reqOf b.need) ≤ S.dec.table.base
            have := h.inserts
            omega

/-- Every operation succeeds and preserves the invariant. -/
theorem inv_step {S : Sys} {blocks : Nat → List Block} {N : Nat → Prop} {I P : List EncInstr} {Q : List DecInstr}
    (h : InvAt S blocks N I P Q) {o : Op} (ho : o.Ok S) :
    ∃ S' blocks' N' I' P' Q', S.step o = .ok S' ∧ InvAt S' blocks' N' I' P' Q' ∧ ∃ is, I' ++ P' = I ++ P ++ is := by
  cases o with
  | settings => obtain ⟨S', h1, h2⟩ := h.settings; exact ⟨S', _, _, _, _, _, h1, h2, [], by simp⟩
  | stream => obtain ⟨S', h1, h2⟩ := h.stream ho; exact ⟨S', _, _, _, _, _, h1, h2, [], by simp⟩
  | updates room => obtain ⟨S', P', h1, h2, is, h3⟩ := h.updates room; exact ⟨S', _, _, _, _, _, h1, h2, is, by simp [h3]⟩
  | encode room s fs => obtain ⟨S', b, P', h1, h2, is, h3⟩ := h.encode ho; exact ⟨S', _, _, _, _, _, h1, h2, is, by simp [h3]⟩
  | toDecoder n => obtain ⟨S', I', P', h1, h2, h3⟩ := h.toDecoder n; exact ⟨S', _, _, _, _, _, h1, h2, [], by simp [h3]⟩
  | toEncoder n => obtain ⟨S', Q', h1, h2⟩ := h.toEncoder n; exact ⟨S', _, _, _, _, _, h1, h2, [], by simp⟩
  | send => obtain ⟨S', Q', h1, h2⟩ := h.send; exact ⟨S', _, _, _, _, _, h1, h2, [], by simp⟩
  | decode s => obtain ⟨S', b, Q', h1, h2⟩ := h.decodeOp s; exact ⟨S', _, _, _, _, _, h1, h2, [], by simp⟩
  | cancel s => obtain ⟨S', N', Q', h1, h2⟩ := h.cancel ho; exact ⟨S', _, _, _, _, _, h1, h2, [], by simp⟩

end

end Neqo.Qp
