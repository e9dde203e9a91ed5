import Verif.Qpack.SysStep

/-! # The tables of the two ends, whatever else goes wrong -/
namespace Neqo.Qp
open Neqo.Codec

/-- What holds for the tables: `I` are the instructions that the decoder carried out, `P` those on the way to it. -/
structure InvT (c : Config) (S : Sys) (I P : List EncInstr) : Prop where
  enc : S.enc.WF
  dec : S.dec.table.WF
  toDec : Holds EncR.read .start S.dec.reader S.toDec P
  run : runAll (execTable c.decMax) S.dec.table P = .ok S.enc.table.plain
  past : runAll (execTable c.decMax) (Table.new false) I = .ok S.dec.table
  caps : ∀ v, EncInstr.capacity v ∈ I ++ P → v = min c.encMax c.decMax
  cap : S.enc.table.capacity ≤ min c.encMax c.decMax
  next : ∀ v ∈ S.enc.nextCapacity, v = min c.encMax c.decMax ∧ v < 2 ^ 64
  maxTableSize : S.dec.maxTableSize = c.decMax
  encMax : S.enc.maxTableSize = c.encMax
  base : S.enc.table.base < 2 ^ 64

theorem invT_init (c : Config) : InvT c (Sys.init c) [] [] where
  enc := enc_new_wf ..
  dec := ⟨by simp [Sys.init, Dec.new, Table.new], by simp [Sys.init, Dec.new, Table.new], rfl, by simp [Sys.init, Dec.new, Table.new],
    by simp [Sys.init, Dec.new, Table.new]⟩
  toDec := Holds.nil enc_framing
  run := rfl
  past := rfl
  caps := by simp
  cap := Nat.zero_le _
  next := by simp [Sys.init, Enc.new]
  maxTableSize := rfl
  encMax := rfl
  base := by simp [Sys.init, Enc.new, Table.new]

section
variable {c : Config} {S : Sys} {I P : List EncInstr}

theorem InvT.nextOk (h : InvT c S I P) : ∀ v ∈ S.enc.nextCapacity, v ≤ c.decMax ∧ v < 2 ^ 64 := by
  intro v hv
  obtain ⟨h1, h2⟩ := h.next v hv
  have := Nat.min_le_right c.encMax c.decMax
  omega

/-- The encoder wrote. -/
theorem InvT.sent (h : InvT c S I P) {e' : Enc} {is : List EncInstr} {out : Bytes} (hs : Sent c.decMax S.enc e' is out)
    (hb : e'.table.base < 2 ^ 64) {T : Sys} (h1 : T.enc = e') (h2 : T.dec = S.dec) (h3 : T.toDec = S.toDec ++ out) :
    InvT c T I (P ++ is) := by
  refine ⟨by rw [h1]; exact hs.wf, by rw [h2]; exact h.dec, by rw [h2, h3]; exact hs.writes.1 _ _ _ h.toDec, ?_, by rw [h2]; exact h.past, ?_, ?_, ?_,
    by rw [h2]; exact h.maxTableSize, by rw [h1, hs.maxTableSize]; exact h.encMax, by rw [h1]; exact hb⟩
  · rw [h2, h1, runAll_append, h.run]; exact hs.run
  · intro v hv
    rw [← List.append_assoc] at hv
    rcases List.mem_append.mp hv with hv | hv
    · exact h.caps v hv
    · exact (h.next v (hs.writes.2 v hv)).1
  · rw [h1]
    rcases hs.next with ⟨-, g2⟩ | ⟨-, g2⟩
    · rw [g2]; exact h.cap
    · exact Nat.le_of_eq (h.next _ g2).1
  · rw [h1]
    rcases hs.next with ⟨g1, -⟩ | ⟨g1, -⟩
    · rw [g1]; exact h.next
    · rw [g1]; simp

/-- Nothing that matters here has changed. -/
theorem InvT.same (h : InvT c S I P) {T : Sys} (h1 : T.enc = S.enc) (h2 : T.dec.table = S.dec.table) (h3 : T.dec.reader = S.dec.reader)
    (h4 : T.dec.maxTableSize = S.dec.maxTableSize) (h5 : T.toDec = S.toDec) : InvT c T I P :=
  ⟨by rw [h1]; exact h.enc, by rw [h2]; exact h.dec, by rw [h3, h5]; exact h.toDec, by rw [h2, h1]; exact h.run, by rw [h2]; exact h.past,
    h.caps, by rw [h1]; exact h.cap, by rw [h1]; exact h.next, by rw [h4]; exact h.maxTableSize, by rw [h1]; exact h.encMax,
    by rw [h1]; exact h.base⟩

theorem InvT.step (h : InvT c S I P) {o : Op} (ho : o.Ok S) {T : Sys} (hs : S.step o = .ok T) :
    ∃ I' P', InvT c T I' P' ∧ ∃ is, I' ++ P' = I ++ P ++ is := by
  cases o with
  | settings =>
    refine ⟨I, P, ?_, [], by simp⟩
    unfold Sys.step at hs; simp only at hs
    split at hs
    · cases hs
    · rename_i e he
      split at hs
      · cases hs
      · rename_i e' he'
        cases hs
        have k1 : e' = { e with maxBlocked := S.dec.maxBlocked } := by
          unfold Enc.setMaxBlocked at he'
          split at he'
          · cases he'; rfl
          · cases he'
        unfold Enc.setMaxCapacity at he
        split at he
        · cases he
        · rename_i hle
          have hw := h.enc
          split at he
          · cases he
            rw [k1]
            exact { h with enc := ⟨hw.table, hw.acked, hw.unacked, hw.refs, hw.held, hw.blocked, hw.entries, hw.old⟩ }
          · cases he
            rw [k1]
            exact { h with
              enc := ⟨hw.table, hw.acked, hw.unacked, hw.refs, hw.held, hw.blocked, hw.entries, hw.old⟩
              next := by
                intro v hv
                have hv' : v = min S.enc.maxTableSize S.dec.maxTableSize := (Option.some.inj hv).symm
                have := Nat.min_le_right S.enc.maxTableSize S.dec.maxTableSize
                refine ⟨by rw [hv', h.encMax, h.maxTableSize], by omega⟩ }
  | stream =>
    refine ⟨I, P, ?_, [], by simp⟩
    unfold Sys.step Enc.addSendStream at hs
    simp only [show S.enc.stream = .noStream from ho, if_true] at hs
    cases hs
    have hw := h.enc
    exact { h with enc := ⟨hw.table, hw.acked, hw.unacked, hw.refs, hw.held, hw.blocked, hw.entries, hw.old⟩ }
  | updates room =>
    obtain ⟨b, w', is, h1, h2, h3, h4, h5⟩ := sendUpdates_ok (m := c.decMax) h.enc h.nextOk room
    unfold Sys.step at hs
    simp only [h1] at hs
    cases hs
    exact ⟨I, P ++ is, h.sent h2 (by rw [h4]; exact h.base) rfl rfl rfl, is, by simp⟩
  | encode room s fs =>
    obtain ⟨o1, o2, o3, o4⟩ := ho
    obtain ⟨b, w', need, is, h1, h2, h3, h4, h5, h6, h7, -⟩ := encode_ok (m := c.decMax) h.enc h.nextOk room s o2 o3 o4
    unfold Sys.step at hs
    simp only [h1] at hs
    cases hs
    exact ⟨I, P ++ is, h.sent h2 (by omega) rfl rfl rfl, is, by simp⟩
  | toDecoder n =>
    have hd := h.toDec
    rw [← List.take_append_drop n S.toDec] at hd
    obtain ⟨r, is1, is2, q1, q2, q3⟩ := hd.split enc_framing
    have hrun := h.run
    rw [q1, runAll_append] at hrun
    cases hr : runAll (execTable c.decMax) S.dec.table is1 with
    | error e => rw [hr] at hrun; cases hrun
    | ok t =>
      rw [hr] at hrun
      have hp := q3 (execTable S.dec.maxTableSize) S.dec.table
      rw [h.maxTableSize, hr] at hp
      have hnew : ∀ bl, InvT c { S with dec := { S.dec with table := t, reader := r, blocked := bl }, toDec := S.toDec.drop n } (I ++ is1) is2 := by
        intro bl
        exact { h with
          dec := (later_run h.dec hr).1, toDec := q2, run := hrun
          past := by rw [runAll_append, h.past]; exact hr
          caps := by rw [List.append_assoc, ← q1]; exact h.caps }
      refine ⟨I ++ is1, is2, ?_, [], by rw [q1]; simp⟩
      unfold Sys.step Dec.receive at hs
      simp only [h.maxTableSize, hp] at hs
      by_cases hb : t.base = S.dec.table.base
      · simp only [hb, if_true] at hs
        cases hs
        exact (hnew S.dec.blocked).same rfl rfl rfl h.maxTableSize.symm rfl
      · simp only [hb, if_false] at hs
        cases hs
        exact (hnew (S.dec.blocked.filter (fun x => ¬ x.2 ≤ t.base))).same rfl rfl rfl h.maxTableSize.symm rfl
  | toEncoder n =>
    refine ⟨I, P, ?_, [], by simp⟩
    unfold Sys.step Enc.receive at hs
    simp only at hs
    have hb := h.base
    have hp := process_ind dec_framing (exec := Enc.exec) (bs := S.dec.sendBuf.take n) (s := S.enc.reader) (t := S.enc)
      (J := fun e => e.WF ∧ e.table.plain = S.enc.table.plain ∧ e.nextCapacity = S.enc.nextCapacity ∧ e.maxTableSize = S.enc.maxTableSize)
      (A := fun _ => True) (bad := fun _ => False)
      (fun e i he => by
        have hbe : e.table.base = S.enc.table.base := by
          have := congrArg Table.base he.2.1; exact this
        rcases exec_any he.1 (by omega) i with ⟨e', g1, g2, g3, g4, g5, g6⟩ | g
        · rw [g1]
          refine ⟨g2, g3.trans he.2.1, ?_, ?_⟩
          · rw [g6]; exact he.2.2.1
          · rw [g6]; exact he.2.2.2
        · rw [g]; exact id)
      (fun s bs _ => by cases DecR.read s bs <;> simp) trivial ⟨h.enc, rfl, rfl, rfl⟩ trivial
    cases hx : process DecR.read Enc.exec S.enc S.enc.reader (S.dec.sendBuf.take n) with
    | error e => rw [hx] at hs; cases e <;> cases hs
    | ok y =>
      obtain ⟨e', r⟩ := y
      rw [hx] at hs hp
      cases hs
      obtain ⟨⟨p1, p2, p3, p4⟩, -⟩ := hp
      have hbe : e'.table.base = S.enc.table.base := by
        have := congrArg Table.base p2; exact this
      have hce : e'.table.capacity = S.enc.table.capacity := by
        have := congrArg Table.capacity p2; exact this
      exact { h with
        enc := ⟨p1.table, p1.acked, p1.unacked, p1.refs, p1.held, p1.blocked, p1.entries, p1.old⟩
        run := by show _ = Except.ok e'.table.plain; rw [p2]; exact h.run
        cap := by show e'.table.capacity ≤ _; rw [hce]; exact h.cap
        next := by show ∀ v ∈ e'.nextCapacity, _; rw [p3]; exact h.next
        encMax := by show e'.maxTableSize = _; rw [p4]; exact h.encMax
        base := by show e'.table.base < _; rw [hbe]; exact h.base }
  | send =>
    refine ⟨I, P, ?_, [], by simp⟩
    unfold Sys.step Dec.send at hs; simp only at hs
    split at hs
    · cases hs
    · rename_i d hd
      cases hs
      split at hd
      · cases hd
      · split at hd
        · cases hd; exact h.same rfl rfl rfl rfl rfl
        · cases hd; exact h.same rfl rfl rfl rfl rfl
  | decode s =>
    refine ⟨I, P, ?_, [], by simp⟩
    unfold Sys.step Dec.decode at hs; simp only at hs
    split at hs
    · cases hs; exact h
    · split at hs
      · cases hs; exact h
      · split at hs
        · cases hs
        · rename_i d hd
          cases hs
          split at hd
          · cases hd
          · cases hd
          · split at hd
            · cases hd; exact h.same rfl rfl rfl rfl rfl
            · split at hd
              · cases hd
              · cases hd; exact h.same rfl rfl rfl rfl rfl
          · cases hd
        · rename_i d hd
          cases hs
          split at hd
          · cases hd
          · cases hd
          · split at hd
            · cases hd
            · split at hd <;> cases hd
          · cases hd
            split
            · exact h.same rfl rfl rfl rfl rfl
            · exact h.same rfl rfl rfl rfl rfl
  | cancel s =>
    refine ⟨I, P, ?_, [], by simp⟩
    unfold Sys.step Dec.cancelStream at hs
    cases hs
    split
    · exact h.same rfl rfl rfl rfl rfl
    · exact h.same rfl rfl rfl rfl rfl

end

/-! ## Runs without inserts -/

theorem exec_base {m : Nat} {u u' : Table} (hw : u.WF) {i : EncInstr} (h : execTable m u i = .ok u') :
    u'.base = u.base + 1 ∨ (∃ v, i = .capacity v ∧ u.setCapacity v = .ok (true, u')) := by
  have hins : ∀ {n v}, (∃ j, u.insert n v = .ok (some j, u')) → u'.base = u.base + 1 := by
    rintro n v ⟨j, hj⟩
    obtain ⟨r', u'', k, h1, h2, h3, h4, h5, h6, h7, -⟩ := insert_ok hw n v
    rw [hj] at h1
    obtain ⟨rfl, rfl⟩ := Prod.mk.inj (Except.ok.inj h1)
    exact h7.2.2
  cases i with
  | capacity v =>
    right
    unfold execTable at h
    simp only at h
    split at h
    · cases h
    · cases hs : u.setCapacity v with
      | error x => rw [hs] at h; cases h
      | ok x =>
        obtain ⟨b, t⟩ := x
        rw [hs] at h
        cases b
        · cases h
        · cases h; exact ⟨v, rfl, hs⟩
  | insertStatic j v =>
    obtain ⟨k, h⟩ := insertResult_ok h
    unfold Table.insertWithNameRef at h
    simp only [if_true] at h
    split at h
    · cases h
    · exact Or.inl (hins ⟨k, h⟩)
  | insertDynamic j v =>
    obtain ⟨k, h⟩ := insertResult_ok h
    unfold Table.insertWithNameRef at h
    simp only [Bool.false_eq_true, if_false] at h
    split at h
    · cases h
    · exact Or.inl (hins ⟨k, h⟩)
  | insertLiteral n v => exact Or.inl (hins (insertResult_ok h))
  | duplicate j =>
    obtain ⟨k, h⟩ := insertResult_ok h
    unfold Table.duplicate at h
    split at h
    · cases h
    · exact Or.inl (hins ⟨k, h⟩)

theorem setCapacity_up {u u' : Table} (hw : u.WF) {v : Nat} (hv : u.capacity ≤ v) (h : u.setCapacity v = .ok (true, u')) :
    u'.dyn = u.dyn ∧ u'.capacity = v ∧ u'.base = u.base := by
  have hf := hw.fits
  unfold Table.setCapacity Table.evictTo at h
  have : evictLoop u.acked v u.dyn u.used = .ok (true, u.dyn, u.used) := by
    cases hd : u.dyn with
    | nil => rfl
    | cons e l => unfold evictLoop; rw [if_pos (by omega)]
  rw [this] at h
  cases h
  exact ⟨rfl, rfl, rfl⟩

/-- Instructions without inserts, none of which reduces the capacity, change no entry. -/
theorem run_same {m k : Nat} {is : List EncInstr} : ∀ {u u' : Table}, u.WF → runAll (execTable m) u is = .ok u' →
    (∀ c, EncInstr.capacity c ∈ is → c = k) → u.capacity ≤ k → u'.base = u.base → u'.dyn = u.dyn := by
  induction is with
  | nil => intro u u' _ h _ _ _; cases h; rfl
  | cons i is ih =>
    intro u u' hw h hc hm hb
    unfold runAll at h
    cases hx : execTable m u i with
    | error e => rw [hx] at h; cases h
    | ok w =>
      rw [hx] at h
      obtain ⟨g1, g2, g3, g4⟩ := later_exec hw hx
      obtain ⟨-, k2, -⟩ := later_run g1 h
      have hb1 := g2.base
      have hb2 := k2.base
      rcases exec_base hw hx with he | ⟨v, rfl, hs⟩
      · omega
      · have hv := hc v (by simp)
        obtain ⟨e1, e2, e3⟩ := setCapacity_up hw (by omega) hs
        rw [ih g1 h (fun c hcm => hc c (List.mem_cons_of_mem _ hcm)) (by omega) (by omega), e1]

theorem wf_new : (Table.new false).WF := ⟨by simp [Table.new], by simp [Table.new], rfl, by simp [Table.new], by simp [Table.new]⟩

/-- Of two lists of which each is the beginning of a third, one is the beginning of the other. -/
theorem prefixes {α : Type} {a b x y : List α} (h : a ++ x = b ++ y) : (∃ z, b = a ++ z) ∨ (∃ z, a = b ++ z) := by
  rw [List.append_eq_append_iff] at h
  rcases h with ⟨z, h1, -⟩ | ⟨z, h1, -⟩
  · exact Or.inl ⟨z, h1⟩
  · exact Or.inr ⟨z, h1⟩

/-- The capacity is the one that there is. -/
theorem run_cap {m k : Nat} {is : List EncInstr} : ∀ {u u' : Table}, u.WF → runAll (execTable m) u is = .ok u' →
    (∀ c, EncInstr.capacity c ∈ is → c = k) → u.capacity ≤ k → u'.capacity ≤ k := by
  induction is with
  | nil => intro u u' _ h _ hk; cases h; exact hk
  | cons i is ih =>
    intro u u' hw h hc hk
    unfold runAll at h
    cases hx : execTable m u i with
    | error e => rw [hx] at h; cases h
    | ok w =>
      rw [hx] at h
      obtain ⟨g1, g2, g3, g4⟩ := later_exec hw hx
      refine ih g1 h (fun c hcm => hc c (List.mem_cons_of_mem _ hcm)) ?_
      cases i with
      | capacity v =>
        rcases exec_base hw hx with he | ⟨v', hv, hs⟩
        · have hx' := hx
          unfold execTable at hx'
          simp only at hx'
          split at hx'
          · cases hx'
          · cases hs : u.setCapacity v with
            | error x => rw [hs] at hx'; cases hx'
            | ok x =>
              obtain ⟨b, t⟩ := x
              rw [hs] at hx'
              cases b
              · cases hx'
              · cases hx'
                rw [(later_setCapacity hw hs).2.2.2, if_pos rfl, hc v (by simp)]
        · rw [(later_setCapacity hw hs).2.2.2, if_pos rfl]
          rw [hc v' (by rw [hv]; simp)]
      | insertStatic a b => exact (later_exec (m := k) hw (i := .insertStatic a b) hx).2.2.2 hk
      | insertDynamic a b => exact (later_exec (m := k) hw (i := .insertDynamic a b) hx).2.2.2 hk
      | insertLiteral a b => exact (later_exec (m := k) hw (i := .insertLiteral a b) hx).2.2.2 hk
      | duplicate a => exact (later_exec (m := k) hw (i := .duplicate a) hx).2.2.2 hk

end Neqo.Qp
