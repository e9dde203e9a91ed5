import Verif.Qpack.EncL

/-! # Encoding a header block -/
namespace Neqo.Qp
open Neqo.Codec

/-! ## What is written to the encoder's stream -/

/-- The bytes are these instructions, whatever was on the stream before; the only capacity is the one given. -/
def Writes (nc : Option Nat) (is : List EncInstr) (b : Bytes) : Prop :=
  (∀ s bs P, Holds EncR.read .start s bs P → Holds EncR.read .start s (bs ++ b) (P ++ is)) ∧
  ∀ c, EncInstr.capacity c ∈ is → nc = some c

theorem writes_nil (nc : Option Nat) : Writes nc [] [] := by
  refine ⟨?_, by simp⟩
  intro s bs P h
  simpa using h

theorem Writes.snoc {nc : Option Nat} {huff : Bool} {is : List EncInstr} {b p : Bytes} {i : EncInstr} (h : Writes nc is b)
    (hi : i.Ok huff) (hp : i.marshal huff = .ok p) (hc : ∀ c, i = .capacity c → nc = some c) : Writes nc (is ++ [i]) (b ++ p) := by
  refine ⟨?_, fun c hm => (List.mem_append.mp hm).elim (h.2 c) (fun hm => hc c (List.mem_singleton.mp hm).symm)⟩
  intro s bs P hh
  obtain ⟨p', h1, -, h2⟩ := enc_read_marshal hi
  rw [hp] at h1
  cases h1
  have := (h.1 s bs P hh).push enc_framing h2
  simpa using this

theorem run_snoc {m : Nat} {t0 t t' : Table} {is : List EncInstr} {i : EncInstr} (h : runAll (execTable m) t0 is = .ok t)
    (hi : execTable m t i = .ok t') : runAll (execTable m) t0 (is ++ [i]) = .ok t' := by
  rw [runAll_append, h]
  simp only [runAll, hi]

/-! ## Entries that are referred to -/

theorem take_mem {t : Table} (ht : t.WF) {i k : Nat} {d : DEntry} (h : t.at i = some d) (hk : i < t.dropped + k) :
    d ∈ t.dyn.take k := by
  obtain ⟨h1, h2⟩ := (at_iff ht).mp h
  rw [List.mem_iff_getElem?]
  exact ⟨i - t.dropped, by rw [List.getElem?_take, if_pos (by omega)]; exact h2⟩

/-- What an insertion does. -/
theorem insert_at {t t' : Table} (ht : t.WF) {n v : Bytes} {i : Nat} (h : t.insert n v = .ok (some i, t')) :
    t'.WF ∧ i = t.base ∧ t'.base = t.base + 1 ∧ t'.capacity = t.capacity ∧ t'.acked = t.acked ∧
      t'.at t.base = some ⟨t.base, n, v, 0⟩ ∧ (∀ j d, t'.at j = some d → j < t.base → t.at j = some d) ∧
      ∀ j d, t.at j = some d → 0 < d.refs → t'.at j = some d := by
  obtain ⟨r, t'', k, h1, h2, h3, h4, h5, h6, h7, -⟩ := insert_ok ht n v
  rw [h] at h1
  obtain ⟨rfl, rfl⟩ := Prod.mk.inj (Except.ok.inj h1)
  obtain ⟨h8, h9, h10⟩ := h7
  have hl := ht.len
  have hb : t.dropped + t.dyn.length = t.base := by unfold Table.dropped; omega
  have hd : t'.dropped = t.dropped + k := by
    unfold Table.dropped; rw [h9, h10, List.length_append, List.length_drop, List.length_singleton]; omega
  refine ⟨h2, h8, h10, h3, h4, ?_, (later_insert ht h).2.1.kept, ?_⟩
  · refine (at_iff h2).mpr ⟨by omega, ?_⟩
    rw [h9, List.getElem?_append_right (by rw [List.length_drop]; omega), List.length_drop, hd]
    rw [show t.base - (t.dropped + k) - (t.dyn.length - k) = 0 by omega]
    rfl
  · intro j d hj hr
    obtain ⟨g1, g2⟩ := (at_iff ht).mp hj
    have hlt := (at_of_index ht hj).2
    have hk : t.dropped + k ≤ j := by
      rcases Nat.lt_or_ge j (t.dropped + k) with hc | hc
      · have := h6 d (take_mem ht hj hc)
        simp [DEntry.canReduce] at this
        omega
      · exact hc
    refine (at_iff h2).mpr ⟨by omega, ?_⟩
    rw [h9, hd, List.getElem?_append_left (by rw [List.length_drop]; omega), List.getElem?_drop]
    rw [← g2]; congr 1; omega

/-- What a change of capacity does. -/
theorem setCapacity_at {t t' : Table} (ht : t.WF) {c : Nat} {b : Bool} (h : t.setCapacity c = .ok (b, t')) :
    t'.base = t.base ∧ ∀ j d, t.at j = some d → 0 < d.refs → t'.at j = some d := by
  obtain ⟨b', t'', k, h1, h2, h3, h4, -⟩ := setCapacity_ok ht c
  rw [h] at h1
  obtain ⟨rfl, rfl⟩ := Prod.mk.inj (Except.ok.inj h1)
  refine ⟨h2.base, fun j d hj hr => ?_⟩
  have hd := h2.dropped ht
  have hk : t.dropped + k ≤ j := by
    rcases Nat.lt_or_ge j (t.dropped + k) with hc | hc
    · have := h2.free d (take_mem ht hj hc)
      simp [DEntry.canReduce] at this
      omega
    · exact hc
  rw [h2.at ht h3, if_pos (by omega)]; exact hj

/-- An encoder evicts only entries that were acknowledged. -/
theorem old_of_free {t : Table} (ht : t.WF) {a k : Nat} (ha : t.acked = some a) (hd : t.dropped ≤ a) (hk : k ≤ t.dyn.length)
    (hf : ∀ e ∈ t.dyn.take k, e.canReduce t.acked = true) : t.dropped + k ≤ a := by
  rcases Nat.eq_zero_or_pos k with h0 | h0
  · omega
  · have hl : k - 1 < t.dyn.length := by omega
    have he : t.dyn[k - 1]? = some t.dyn[k - 1] := List.getElem?_eq_getElem hl
    have h1 := hf t.dyn[k - 1] (List.mem_iff_getElem?.mpr ⟨k - 1, by rw [List.getElem?_take, if_pos (by omega)]; exact he⟩)
    have h2 := ht.index _ _ he
    simp only [DEntry.canReduce, ha, Option.all_some, Bool.and_eq_true, decide_eq_true_eq] at h1
    omega

theorem insert_old {t t' : Table} (ht : t.WF) {n v : Bytes} {i a : Nat} (h : t.insert n v = .ok (some i, t'))
    (ha : t.acked = some a) (hd : t.dropped ≤ a) : t'.dropped ≤ a := by
  obtain ⟨r, t'', k, h1, h2, h3, h4, h5, h6, h7, -⟩ := insert_ok ht n v
  rw [h] at h1
  obtain ⟨rfl, rfl⟩ := Prod.mk.inj (Except.ok.inj h1)
  obtain ⟨h8, h9, h10⟩ := h7
  have hl := ht.len
  have hd' : t'.dropped = t.dropped + k := by
    unfold Table.dropped; rw [h9, h10, List.length_append, List.length_drop, List.length_singleton]; omega
  rw [hd']
  exact old_of_free ht ha hd h5 h6

theorem setCapacity_old {t t' : Table} (ht : t.WF) {c a : Nat} {b : Bool} (h : t.setCapacity c = .ok (b, t'))
    (ha : t.acked = some a) (hd : t.dropped ≤ a) : t'.dropped ≤ a := by
  obtain ⟨b', t'', k, h1, h2, h3, h4, -⟩ := setCapacity_ok ht c
  rw [h] at h1
  obtain ⟨rfl, rfl⟩ := Prod.mk.inj (Except.ok.inj h1)
  rw [h2.dropped ht]
  exact old_of_free ht ha hd h2.le h2.free

/-! ## The loop -/

/-- A field that can be sent. -/
structure FieldOk (huff : Bool) (f : Field) : Prop where
  utf8 : utf8 f.1 = true
  name : Short huff f.1
  value : Short huff f.2

/-- What holds in the loop.  `e0` is the encoder before it, `t0` a table from which the instructions `is` lead to the
table that there is now, `need` the entries that the block needs, `fs` the fields that were written. -/
structure LoopInv (nc : Option Nat) (m : Nat) (e0 : Enc) (t0 : Table) (k : Nat) (canTrack canBlock : Bool) (fs : List Field) (l : Loop)
    (need : List (Nat × Field)) (is : List EncInstr) : Prop where
  enc : l.w.enc = { e0 with table := l.w.enc.table }
  table : l.w.enc.table.WF
  acked : l.w.enc.table.acked = e0.table.acked
  cap : l.w.enc.table.capacity = e0.table.capacity
  nodup : l.refs.Nodup
  refs : ∀ i d, l.w.enc.table.at i = some d → d.refs = e0.unacked.cnt i + if i ∈ l.refs then 1 else 0
  held : ∀ i, 0 < e0.unacked.cnt i → (l.w.enc.table.at i).isSome
  baseLo : e0.table.base ≤ l.w.enc.table.base
  baseHi : l.w.enc.table.base ≤ e0.table.base + k
  kept : ∀ x : Nat × Field, 0 < e0.unacked.cnt x.1 → e0.table.Has x → l.w.enc.table.Has x
  hbase : l.h.base = e0.table.base
  hhuff : l.h.huff = e0.huff
  hent : l.h.maxEntries = e0.maxEntries
  maxRef : l.h.maxRef = if need = [] then none else some (reqOf need - 1)
  needs : need.map Prod.fst = l.refs
  has : ∀ x ∈ need, l.w.enc.table.Has x
  decodes : Decodes l.h.buf e0.table.base need fs
  long : fs.length ≤ l.h.buf.length
  writes : Writes nc is l.w.out
  run : runAll (execTable m) t0 is = .ok l.w.enc.table.plain
  block : canBlock = false → ∀ i ∈ l.refs, i < e0.acked
  track : canTrack = false → l.refs = []
  old : l.w.enc.table.dropped ≤ e0.acked
  known : e0.table.acked = some e0.acked

section
variable {nc : Option Nat} {m : Nat} {e0 : Enc} {t0 : Table} {k : Nat} {canTrack canBlock : Bool} {fs : List Field} {l : Loop}
  {need : List (Nat × Field)} {is : List EncInstr}

/-- A field without a reference. -/
theorem LoopInv.plain (hl : LoopInv nc m e0 t0 k canTrack canBlock fs l need is) {f : Field} {x : Bytes} (hx : x ≠ [])
    (hf : ∀ d : HDec, ∀ rest, d.readField (x ++ rest) = .ok (f, rest)) (b : Bool) :
    LoopInv nc m e0 t0 k canTrack canBlock (fs ++ [f]) { l with h := { l.h with buf := l.h.buf ++ x }, blocked := b } need is where
  enc := hl.enc
  table := hl.table
  acked := hl.acked
  cap := hl.cap
  nodup := hl.nodup
  refs := hl.refs
  held := hl.held
  baseLo := hl.baseLo
  baseHi := hl.baseHi
  kept := hl.kept
  hbase := hl.hbase
  hhuff := hl.hhuff
  hent := hl.hent
  maxRef := hl.maxRef
  needs := hl.needs
  has := hl.has
  decodes := hl.decodes.snoc (fun _ h => h) hx (fun t req _ _ _ rest => hf _ rest)
  long := by
    have := hl.long
    have := List.length_pos_iff.mpr hx
    simp only [List.length_append, List.length_singleton]; omega
  writes := hl.writes
  run := hl.run
  block := hl.block
  track := hl.track
  old := hl.old
  known := hl.known

theorem newRef_max {h : HEnc} {need : List (Nat × Field)} (hm : h.maxRef = if need = [] then none else some (reqOf need - 1))
    (x : Nat × Field) : (h.newRef x.1) = { h with maxRef := some (reqOf (need ++ [x]) - 1) } := by
  unfold HEnc.newRef
  rw [reqOf_snoc]
  by_cases hn : need = []
  · rw [if_pos hn] at hm
    rw [hm, hn, reqOf_nil]
    simp
  · rw [if_neg hn] at hm
    obtain ⟨y, hy, he⟩ := reqOf_mem hn
    rw [hm]
    simp only
    by_cases hc : reqOf need - 1 < x.1
    · rw [if_pos hc]
      congr 2; omega
    · rw [if_neg hc]
      rw [show max (reqOf need) (x.1 + 1) - 1 = reqOf need - 1 by omega, ← hm]

/-- A field with a reference to an entry. -/
theorem LoopInv.withRef (hl : LoopInv nc m e0 t0 k canTrack canBlock fs l need is) {f : Field} {x : Bytes} {i : Nat} {d : DEntry}
    (hx : x ≠ []) (hd : l.w.enc.table.at i = some d) (ht : canTrack = true) (hb : canBlock = false → i < e0.acked)
    (hf : ∀ t req, t.WF → t.base < 2 ^ 62 → i < req → Table.Has t (i, (d.name, d.value)) → ∀ rest,
      HDec.readField ⟨t, req, e0.table.base⟩ (x ++ rest) = .ok (f, rest)) :
    ∃ l' need', Loop.ref { l with h := HEnc.newRef { l.h with buf := l.h.buf ++ x } i } i = .ok l' ∧
      LoopInv nc m e0 t0 k canTrack canBlock (fs ++ [f]) l' need' is := by
  have hlong : (fs ++ [f]).length ≤ (l.h.buf ++ x).length := by
    have := hl.long
    have := List.length_pos_iff.mpr hx
    simp only [List.length_append, List.length_singleton]; omega
  have hnr := newRef_max (h := { l.h with buf := l.h.buf ++ x }) hl.maxRef (i, (d.name, d.value))
  unfold Loop.ref
  rw [hnr]
  simp only
  by_cases hi : i ∈ l.refs
  · rw [if_pos hi]
    obtain ⟨y, hy, hyi⟩ := List.mem_map.mp (by rw [← hl.needs] at hi; exact hi)
    have hy2 : y = (i, (d.name, d.value)) := by
      obtain ⟨e, he1, he2⟩ := hl.has y hy
      rw [hyi, hd] at he1
      cases he1
      rw [he2, ← hyi]
    have hlt := reqOf_lt hy
    rw [hyi] at hlt
    have hmax : reqOf (need ++ [(i, (d.name, d.value))]) = reqOf need := by rw [reqOf_snoc]; simp only; omega
    refine ⟨_, need, rfl, ?_⟩
    rw [hmax]
    exact { enc := hl.enc, table := hl.table, acked := hl.acked, cap := hl.cap, nodup := hl.nodup, refs := hl.refs, held := hl.held,
            baseLo := hl.baseLo, baseHi := hl.baseHi, kept := hl.kept, hbase := hl.hbase, hhuff := hl.hhuff, hent := hl.hent,
            maxRef := by
              have : need ≠ [] := by intro hc; rw [hc] at hy; cases hy
              rw [if_neg this]
            needs := hl.needs, has := hl.has, long := hlong, writes := hl.writes, run := hl.run, block := hl.block, track := hl.track, old := hl.old, known := hl.known,
            decodes := hl.decodes.snoc (fun _ h => h) hx (fun t req hw hb hn rest => by
              rw [hy2] at hy
              exact hf t req hw hb (hn _ hy).1 (hn _ hy).2 rest) }
  · rw [if_neg hi]
    obtain ⟨t', a1, a2, a3, a4, a5, a6, a7⟩ := addRef_ok hl.table hd
    rw [a1]
    simp only
    have hnot : ∀ y ∈ need, y.1 ≠ i := by
      intro y hy hc
      exact hi (by rw [← hl.needs, ← hc]; exact List.mem_map_of_mem hy)
    have hhas : ∀ y : Nat × Field, l.w.enc.table.Has y → t'.Has y := by
      rintro y ⟨e, he1, he2⟩
      by_cases hyi : y.1 = i
      · rw [hyi, hd] at he1
        cases he1
        exact ⟨{ d with refs := d.refs + 1 }, by rw [a7, if_pos hyi], he2⟩
      · exact ⟨e, by rw [a7, if_neg hyi]; exact he1, he2⟩
    refine ⟨_, need ++ [(i, (d.name, d.value))], rfl, ?_⟩
    exact { enc := congrArg (fun e : Enc => { e with table := t' }) hl.enc
            table := a2
            acked := a5.trans hl.acked
            cap := a4.trans hl.cap
            nodup := by
              rw [List.nodup_append]
              refine ⟨hl.nodup, by simp, ?_⟩
              intro a ha b hb hc
              simp at hb
              rw [hc, hb] at ha
              exact hi ha
            refs := by
              intro j e he
              change t'.at j = some e at he
              rw [a7] at he
              by_cases hj : j = i
              · rw [if_pos hj] at he
                cases he
                have := hl.refs i d hd
                rw [if_neg hi] at this
                subst hj
                simp only [List.mem_append, List.mem_singleton, or_true, if_true]
                omega
              · rw [if_neg hj] at he
                have := hl.refs j e he
                rw [this]
                simp [hj]
            held := by
              intro j hj
              have := hl.held j hj
              show (t'.at j).isSome
              rw [a7]
              split
              · rfl
              · exact this
            baseLo := by show _ ≤ t'.base; rw [a3]; exact hl.baseLo
            baseHi := by show t'.base ≤ _; rw [a3]; exact hl.baseHi
            kept := fun y h1 h2 => hhas y (hl.kept y h1 h2)
            hbase := hl.hbase, hhuff := hl.hhuff, hent := hl.hent
            maxRef := by rw [if_neg (by simp)]
            needs := by rw [List.map_append, hl.needs]; rfl
            has := by
              intro y hy
              rcases List.mem_append.mp hy with hy | hy
              · exact hhas y (hl.has y hy)
              · simp at hy
                rw [hy]
                exact hhas _ ⟨d, hd, rfl⟩
            decodes := hl.decodes.snoc (fun _ h => List.mem_append_left _ h) hx (fun t req hw hb hn rest => by
              have := hn (i, (d.name, d.value)) (by simp)
              exact hf t req hw hb this.1 this.2 rest)
            long := hlong
            writes := hl.writes
            run := by
              show _ = Except.ok t'.plain
              rw [plain_addRef a1]; exact hl.run
            block := by
              intro hcb j hj
              rcases List.mem_append.mp hj with hj | hj
              · exact hl.block hcb j hj
              · simp at hj; rw [hj]; exact hb hcb
            track := by rw [ht]; intro h; cases h
            old := by
              have := hl.old
              show t'.dropped ≤ _
              unfold Table.dropped at this ⊢
              rw [a3, a6]; exact this
            known := hl.known }

/-- Nothing but an insertion. -/
theorem LoopInv.insert (hl : LoopInv nc m e0 t0 k canTrack canBlock fs l need is) {f : Field} (hf : FieldOk e0.huff f)
    {p : Bytes} (hp : (EncInstr.insertLiteral f.1 f.2).marshal e0.huff = .ok p) {i : Nat} {t' : Table} {w' : EncW}
    (hi : l.w.enc.table.insert f.1 f.2 = .ok (some i, t')) (ho : w'.out = l.w.out ++ p)
    (he : w'.enc = { l.w.enc with table := t' }) :
    LoopInv nc m e0 t0 (k + 1) canTrack canBlock fs { l with w := w' } need (is ++ [.insertLiteral f.1 f.2]) ∧
      t'.at i = some ⟨i, f.1, f.2, 0⟩ ∧ e0.table.base ≤ i := by
  obtain ⟨b1, b2, b3, b4, b5, b6, b7, b8⟩ := insert_at hl.table hi
  have hacked := hl.table.acked
  have hcnt : e0.unacked.cnt l.w.enc.table.base = 0 := by
    rcases Nat.eq_zero_or_pos (e0.unacked.cnt l.w.enc.table.base) with h | h
    · exact h
    · have := ((at_range hl.table).mp (hl.held _ h)).2
      omega
  have hnin : l.w.enc.table.base ∉ l.refs := by
    intro hc
    rw [← hl.needs] at hc
    obtain ⟨y, hy, hyi⟩ := List.mem_map.mp hc
    obtain ⟨e, he1, -⟩ := hl.has y hy
    have := (at_of_index hl.table he1).2
    omega
  have hte : w'.enc.table = t' := by rw [he]
  have hkeep : ∀ y : Nat × Field, (0 < e0.unacked.cnt y.1 ∨ y.1 ∈ l.refs) → l.w.enc.table.Has y → t'.Has y := by
    rintro y hy ⟨e, he1, he2⟩
    refine ⟨e, b8 _ _ he1 ?_, he2⟩
    rw [hl.refs _ _ he1]
    rcases hy with hy | hy
    · omega
    · rw [if_pos hy]; omega
  refine ⟨?_, by rw [b2]; exact b6, by rw [b2]; exact hl.baseLo⟩
  exact { enc := by show w'.enc = { e0 with table := w'.enc.table }; rw [he, hl.enc]
          table := by show w'.enc.table.WF; rw [hte]; exact b1
          acked := by show w'.enc.table.acked = _; rw [hte, b5]; exact hl.acked
          cap := by show w'.enc.table.capacity = _; rw [hte, b4]; exact hl.cap
          nodup := hl.nodup
          refs := by
            intro j d hd
            change w'.enc.table.at j = some d at hd
            rw [hte] at hd
            rcases Nat.lt_or_ge j l.w.enc.table.base with hj | hj
            · exact hl.refs j d (b7 j d hd hj)
            · have := (at_of_index b1 hd).2
              have hj2 : j = l.w.enc.table.base := by omega
              rw [hj2, b6] at hd
              cases hd
              rw [hj2, hcnt, if_neg hnin]
          held := by
            intro j hj
            obtain ⟨d, hd⟩ := Option.isSome_iff_exists.mp (hl.held j hj)
            show (w'.enc.table.at j).isSome
            rw [hte, b8 j d hd (by rw [hl.refs j d hd]; omega)]; rfl
          baseLo := by show _ ≤ w'.enc.table.base; have := hl.baseLo; rw [hte]; omega
          baseHi := by show w'.enc.table.base ≤ _; have := hl.baseHi; rw [hte]; omega
          kept := by
            intro y h1 h2
            show w'.enc.table.Has y
            rw [hte]
            exact hkeep y (Or.inl h1) (hl.kept y h1 h2)
          hbase := hl.hbase, hhuff := hl.hhuff, hent := hl.hent, maxRef := hl.maxRef, needs := hl.needs
          has := by
            intro y hy
            show w'.enc.table.Has y
            rw [hte]
            exact hkeep y (Or.inr (by rw [← hl.needs]; exact List.mem_map_of_mem hy)) (hl.has y hy)
          decodes := hl.decodes
          long := hl.long
          writes := by
            show Writes _ _ w'.out
            rw [ho]
            exact hl.writes.snoc (huff := e0.huff) (show EncInstr.Ok e0.huff (.insertLiteral f.1 f.2) from ⟨hf.name, hf.value⟩) hp (by simp)
          run := by
            show _ = Except.ok w'.enc.table.plain
            rw [hte]
            refine run_snoc hl.run ?_
            show insertResult (l.w.enc.table.plain.insert f.1 f.2) = _
            rw [plain_insert hi]; rfl
          block := hl.block
          track := hl.track
          old := by
            show w'.enc.table.dropped ≤ _
            rw [hte]
            exact insert_old hl.table hi (hl.acked.trans hl.known) hl.old
          known := hl.known }

theorem LoopInv.weaken (hl : LoopInv nc m e0 t0 k canTrack canBlock fs l need is) : LoopInv nc m e0 t0 (k + 1) canTrack canBlock fs l need is :=
  { hl with baseHi := Nat.le_succ_of_le hl.baseHi }

/-- What an insertion with its instruction does. -/
theorem sendAndInsert_ok {w : EncW} (hw : w.enc.table.WF) {f : Field} (hf : FieldOk w.enc.huff f) :
    ∃ r w', w.sendAndInsert f.1 f.2 = .ok (r, w') ∧ match r with
      | none => w' = w
      | some i => ∃ p t', (EncInstr.insertLiteral f.1 f.2).marshal w.enc.huff = .ok p ∧ w.enc.table.insert f.1 f.2 = .ok (some i, t') ∧
          w'.out = w.out ++ p ∧ w'.enc = { w.enc with table := t' } := by
  obtain ⟨r, t', k', h1, h2, h3, h4, h5, h6, h7, h8⟩ := insert_ok hw f.1 f.2
  unfold EncW.sendAndInsert
  have h8' : w.enc.table.insertPossible (f.1.length + f.2.length + entryOverhead) = .ok r.isSome := h8
  rw [h8']
  cases r with
  | none => exact ⟨none, w, rfl, rfl⟩
  | some i =>
    simp only [Option.isSome_some]
    obtain ⟨p, hp, -, -⟩ := enc_read_marshal (huff := w.enc.huff) (i := .insertLiteral f.1 f.2) ⟨hf.name, hf.value⟩
    rw [hp]
    simp only
    split
    · exact ⟨none, w, rfl, rfl⟩
    · unfold EncW.write
      by_cases hr : p.length ≤ w.room
      · rw [if_pos hr]
        simp only
        rw [h1]
        exact ⟨some i, _, rfl, p, t', rfl, rfl, rfl, rfl⟩
      · rw [if_neg hr]
        exact ⟨none, w, rfl, rfl⟩

theorem LoopInv.acked_eq (hl : LoopInv nc m e0 t0 k canTrack canBlock fs l need is) : l.w.enc.acked = e0.acked := by
  unfold Enc.acked; rw [hl.acked]

theorem int_ne_nil (p : Prefix) (n : Nat) : encodeInt p n ≠ [] := by
  unfold encodeInt
  split <;> simp

theorem litRef_static {h : HEnc} {v y : Bytes} (hy : encodeLiteral h.huff noPrefix v = .ok y) (i : Nat) :
    h.literalNameRef true i v = .ok { h with buf := h.buf ++ (encodeInt headerFieldLiteralNameRefStatic i ++ y) } := by
  unfold HEnc.literalNameRef
  simp only [if_true, hy, List.append_assoc]

theorem litRef_dyn {h : HEnc} {v y : Bytes} (hy : encodeLiteral h.huff noPrefix v = .ok y) (i : Nat) :
    h.literalNameRef false i v = .ok (HEnc.newRef { h with buf := h.buf ++ ((if i < h.base then
      encodeInt headerFieldLiteralNameRefDynamic (h.base - i - 1) else encodeInt headerFieldLiteralNameRefDynamicPost (i - h.base)) ++ y) } i) := by
  unfold HEnc.literalNameRef
  simp only [Bool.false_eq_true, if_false, hy]
  congr 1
  split
  · unfold HEnc.newRef
    simp only
    cases h.maxRef with
    | none => simp
    | some z => simp only; split <;> simp
  · unfold HEnc.newRef
    simp only
    cases h.maxRef with
    | none => simp
    | some z => simp only; split <;> simp

theorem litLit {h : HEnc} {n v x y : Bytes} (hx : encodeLiteral h.huff headerFieldLiteralNameLiteral n = .ok x)
    (hy : encodeLiteral h.huff noPrefix v = .ok y) : h.literalNameLiteral n v = .ok { h with buf := h.buf ++ (x ++ y) } := by
  unfold HEnc.literalNameLiteral
  simp only [hx, hy, List.append_assoc]

/-- A field written as literals. -/
theorem LoopInv.literal (hl : LoopInv nc m e0 t0 k canTrack canBlock fs l need is) {f : Field} (hf : FieldOk e0.huff f) (b : Bool) :
    ∃ l', Loop.literal { l with blocked := b } f = .ok l' ∧ LoopInv nc m e0 t0 k canTrack canBlock (fs ++ [f]) l' need is := by
  obtain ⟨c, x, h1, -⟩ := read_lit_lit (d := ⟨t0, 0, 0⟩) hf.name hf.utf8
  obtain ⟨y, h3, h4⟩ := lit_of hf.value
  unfold Loop.literal
  simp only
  rw [litLit (by rw [hl.hhuff]; exact h1) (by rw [hl.hhuff]; exact h3)]
  refine ⟨_, rfl, ?_⟩
  exact hl.plain (f := f) (x := c :: x ++ y) (by simp) (by
    intro d rest
    obtain ⟨c', x', h1', h2'⟩ := read_lit_lit (d := d) hf.name hf.utf8
    rw [h1] at h1'
    cases h1'
    exact h2' h4 rest) b

/-- A round of the loop. -/
theorem LoopInv.step (hl : LoopInv nc m e0 t0 k canTrack canBlock fs l need is) (hw : e0.WF) {f : Field} (hf : FieldOk e0.huff f)
    (hbt : canBlock = true → canTrack = true) (hbase : e0.table.base + k + 1 < 2 ^ 62) :
    ∃ l' need' is', l.field canTrack canBlock f = .ok l' ∧ LoopInv nc m e0 t0 (k + 1) canTrack canBlock (fs ++ [f]) l' need' is' := by
  have hstat : ∀ {i : Nat} {e : SEntry}, staticTable[i]? = some e → i < 2 ^ 64 := by
    intro i e he
    have := (List.getElem?_eq_some_iff.mp he).1
    have h99 : staticTable.length = 99 := by decide +kernel
    omega
  have hlit := fun b => hl.literal hf b
  obtain ⟨y, hy1, hy2⟩ := lit_of (huff := e0.huff) hf.value
  rw [← hl.hhuff] at hy1
  have hfound : ∀ r, (if canTrack then l.w.enc.table.lookup f.1 f.2 canBlock else staticLookup f.1 f.2) = some r →
      r.Ok l.w.enc.table f.1 f.2 canBlock ∧ (r.isStatic = false → canTrack = true) := by
    intro r hr
    cases canTrack
    · simp only [Bool.false_eq_true, if_false] at hr
      refine ⟨staticLookup_ok (t := l.w.enc.table) r hr, fun hs => ?_⟩
      have := staticLookup_ok (t := { l.w.enc.table with dyn := [] }) (canBlock := canBlock) r hr
      unfold Found.Ok at this
      rw [hs] at this
      obtain ⟨e, he, -⟩ := this
      cases he
    · simp only [if_true] at hr
      exact ⟨lookup_ok hl.table r hr, fun _ => rfl⟩
  unfold Loop.field
  cases hr : (if canTrack then l.w.enc.table.lookup f.1 f.2 canBlock else staticLookup f.1 f.2) with
  | some r =>
    simp only
    obtain ⟨hok, htr⟩ := hfound r hr
    unfold Found.Ok at hok
    cases hs : r.isStatic
    · -- an entry of the dynamic table
      rw [hs] at hok
      simp only [Bool.false_eq_true, if_false] at hok ⊢
      obtain ⟨d, hd1, hd2, hd3, hd4⟩ := hok
      have hidx := (at_of_index hl.table hd1).2
      have hhi := hl.baseHi
      have hblock : canBlock = false → r.index < e0.acked := by
        intro hc
        refine hd4 hc _ ?_
        rw [hl.acked]; exact hw.acked
      cases hv : r.valueMatches
      · simp only [Bool.false_eq_true, if_false]
        rw [litRef_dyn hy1]
        simp only
        have hx : (if r.index < e0.table.base then encodeInt headerFieldLiteralNameRefDynamic (e0.table.base - r.index - 1)
          else encodeInt headerFieldLiteralNameRefDynamicPost (r.index - e0.table.base)) ++ y ≠ [] := by
          intro hc
          have := (List.append_eq_nil_iff.mp hc).1
          split at this <;> exact int_ne_nil _ _ this
        obtain ⟨l', need', q1, q2⟩ := hl.withRef (f := f) hx hd1 (htr hs) hblock (by
          intro t req h1 h2 h3 h4 rest
          obtain ⟨e, he1, he2⟩ := h4
          obtain ⟨hn1, hn2⟩ := Prod.mk.inj he2
          have := read_ref (d := ⟨t, req, e0.table.base⟩) h1 h2 (by simp only; omega) he1 h3 (by rw [hn1, hd2]; exact hf.utf8) (by simp only; omega) hy2 rest
          rw [this, hn1, hd2])
        refine ⟨l', need', is, ?_, q2.weaken⟩
        rw [← hl.hbase] at q1
        exact q1
      · simp only [if_true]
        unfold HEnc.indexedDynamic
        have hx : (if r.index < e0.table.base then encodeInt headerFieldIndexDynamic (e0.table.base - r.index - 1)
          else encodeInt headerFieldIndexDynamicPost (r.index - e0.table.base)) ≠ [] := by
          split <;> exact int_ne_nil _ _
        obtain ⟨l', need', q1, q2⟩ := hl.withRef (f := f) hx hd1 (htr hs) hblock (by
          intro t req h1 h2 h3 h4 rest
          obtain ⟨e, he1, he2⟩ := h4
          obtain ⟨hn1, hn2⟩ := Prod.mk.inj he2
          have := read_indexed (d := ⟨t, req, e0.table.base⟩) h1 h2 (by simp only; omega) he1 h3 (by rw [hn1, hd2]; exact hf.utf8) (by simp only; omega) rest
          rw [this, hn1, hn2, hd2, hd3 hv])
        refine ⟨l', need', is, ?_, q2.weaken⟩
        rw [← hl.hbase] at q1
        exact q1
    · -- an entry of the static table
      rw [hs] at hok
      simp only [if_true] at hok ⊢
      obtain ⟨e, he1, he2, he3⟩ := hok
      cases hv : r.valueMatches
      · simp only [Bool.false_eq_true, if_false]
        rw [litRef_static hy1]
        refine ⟨_, need, is, rfl, ?_⟩
        have := hl.plain (f := f) (x := encodeInt headerFieldLiteralNameRefStatic r.index ++ y)
          (by intro hc; exact int_ne_nil _ _ (List.append_eq_nil_iff.mp hc).1)
          (by
            intro d rest
            have := read_ref_static (d := d) he1 (hstat he1) hy2 rest
            rw [this, he2]) l.blocked
        exact this.weaken
      · simp only [if_true]
        refine ⟨_, need, is, rfl, ?_⟩
        have := hl.plain (f := f) (x := encodeInt headerFieldIndexStatic r.index) (int_ne_nil _ _)
          (by
            intro d rest
            have := read_indexed_static (d := d) he1 (hstat he1) rest
            rw [this, he2, he3 hv]) l.blocked
        exact this.weaken
  | none =>
    simp only
    by_cases hc : (canBlock && !l.blocked) = true
    · rw [if_pos hc]
      have hcb : canBlock = true := by
        rw [Bool.and_eq_true] at hc; exact hc.1
      have hu : l.w.enc.huff = e0.huff := by rw [hl.enc]
      obtain ⟨r, w', s1, s2⟩ := sendAndInsert_ok hl.table (f := f) (by rw [hu]; exact hf)
      rw [s1]
      cases r with
      | none =>
        simp only at s2 ⊢
        rw [s2]
        obtain ⟨l', q1, q2⟩ := hlit true
        exact ⟨l', need, is, q1, q2.weaken⟩
      | some i =>
        simp only at s2 ⊢
        obtain ⟨p, t', p1, p2, p3, p4⟩ := s2
        rw [hu] at p1
        obtain ⟨i1, i2, i3⟩ := hl.insert hf p1 p2 p3 p4
        have hte : w'.enc.table = t' := by rw [p4]
        have hidx : i < 2 ^ 62 := by
          have := (at_of_index (insert_at hl.table p2).1 i2).2
          have h3 := (insert_at hl.table p2).2.2.1
          have := hl.baseHi
          omega
        unfold HEnc.indexedDynamic
        have hx : (if i < e0.table.base then encodeInt headerFieldIndexDynamic (e0.table.base - i - 1)
          else encodeInt headerFieldIndexDynamicPost (i - e0.table.base)) ≠ [] := by
          split <;> exact int_ne_nil _ _
        obtain ⟨l', need', q1, q2⟩ := i1.withRef (f := f) hx (i := i) (d := ⟨i, f.1, f.2, 0⟩) (by show w'.enc.table.at i = _; rw [hte]; exact i2)
          (hbt hcb) (by rw [hcb]; intro h; cases h) (by
          intro t req h1 h2 h3 h4 rest
          obtain ⟨e, he1, he2⟩ := h4
          obtain ⟨hn1, hn2⟩ := Prod.mk.inj he2
          have := read_indexed (d := ⟨t, req, e0.table.base⟩) h1 h2 (by simp only; omega) he1 h3 (by rw [hn1]; exact hf.utf8) (by simp only; omega) rest
          rw [this, hn1, hn2])
        refine ⟨l', need', is ++ [.insertLiteral f.1 f.2], ?_, q2⟩
        rw [← hl.hbase] at q1
        exact q1
    · rw [if_neg hc]
      obtain ⟨l', q1, q2⟩ := hlit l.blocked
      exact ⟨l', need, is, q1, q2.weaken⟩

end

/-- The loop. -/
theorem LoopInv.fields {nc : Option Nat} {m : Nat} {e0 : Enc} {t0 : Table} {canTrack canBlock : Bool} (hw : e0.WF)
    (hbt : canBlock = true → canTrack = true) {gs : List Field} : ∀ {k : Nat} {fs : List Field} {l : Loop}
    {need : List (Nat × Field)} {is : List EncInstr}, LoopInv nc m e0 t0 k canTrack canBlock fs l need is →
    (∀ f ∈ gs, FieldOk e0.huff f) → e0.table.base + k + gs.length < 2 ^ 62 →
    ∃ l' need' is', l.fields canTrack canBlock gs = .ok l' ∧ LoopInv nc m e0 t0 (k + gs.length) canTrack canBlock (fs ++ gs) l' need' is' := by
  induction gs with
  | nil =>
    intro k fs l need is hl _ _
    exact ⟨l, need, is, rfl, by simpa using hl⟩
  | cons g gs ih =>
    intro k fs l need is hl hg hb
    rw [List.length_cons] at hb
    obtain ⟨l1, n1, i1, h1, h2⟩ := hl.step hw (hg g (by simp)) hbt (by omega)
    obtain ⟨l', n', i', h3, h4⟩ := ih h2 (fun f hf => hg f (List.mem_cons_of_mem _ hf)) (by omega)
    refine ⟨l', n', i', ?_, ?_⟩
    · unfold Loop.fields
      rw [h1]; exact h3
    · rw [List.append_assoc] at h4
      rw [List.length_cons, show k + (gs.length + 1) = k + 1 + gs.length by omega]
      exact h4

/-! ## Blocks -/

/-- An encoder after it has sent something to the decoder: instructions that do to the decoder's table what was done
to its own. -/
structure Sent (m : Nat) (e e' : Enc) (is : List EncInstr) (out : Bytes) : Prop where
  wf : e'.WF
  writes : Writes e.nextCapacity is out
  run : runAll (execTable m) e.table.plain is = .ok e'.table.plain
  acked : e'.acked = e.acked
  base : e.table.base ≤ e'.table.base
  kept : ∀ x : Nat × Field, 0 < e.unacked.cnt x.1 → e.table.Has x → e'.table.Has x
  maxBlocked : e'.maxBlocked = e.maxBlocked
  maxTracked : e'.maxTracked = e.maxTracked
  huff : e'.huff = e.huff
  reader : e'.reader = e.reader
  maxTableSize : e'.maxTableSize = e.maxTableSize
  next : (e'.nextCapacity = e.nextCapacity ∧ e'.table.capacity = e.table.capacity) ∨
    (e'.nextCapacity = none ∧ e.nextCapacity = some e'.table.capacity)

theorem marshal_capacity (huff : Bool) (c : Nat) : (EncInstr.capacity c).marshal huff = .ok (encodeInt encoderCapacity c) := rfl

theorem maybeCapacity_ok {m : Nat} {e : Enc} (he : e.WF) (hm : ∀ c ∈ e.nextCapacity, c ≤ m ∧ c < 2 ^ 64) (room : Nat) :
    ∃ b w' is, EncW.maybeCapacity ⟨e, room, []⟩ = .ok (b, w') ∧ Sent m e w'.enc is w'.out ∧ w'.enc.unacked = e.unacked ∧
      w'.enc.table.base = e.table.base ∧ w'.enc.blockedCnt = e.blockedCnt := by
  have hsame : ∀ b : Bool, ∃ b' w' is, (Except.ok (b, (⟨e, room, []⟩ : EncW)) : Except Err (Bool × EncW)) = .ok (b', w') ∧ Sent m e w'.enc is w'.out ∧
      w'.enc.unacked = e.unacked ∧ w'.enc.table.base = e.table.base ∧ w'.enc.blockedCnt = e.blockedCnt := fun b =>
    ⟨b, _, [], rfl, ⟨he, writes_nil _, rfl, rfl, Nat.le_refl _, fun _ _ h => h, rfl, rfl, rfl, rfl, rfl, Or.inl ⟨rfl, rfl⟩⟩, rfl, rfl, rfl⟩
  unfold EncW.maybeCapacity
  simp only
  cases hn : e.nextCapacity with
  | none => exact hsame true
  | some cap =>
    simp only
    obtain ⟨hc1, hc2⟩ := hm cap hn
    obtain ⟨b, t', k, h1, h2, h3, h4, h5⟩ := setCapacity_ok he.table cap
    have hfit : ¬ cap < e.table.capacity → b = true := by
      intro hlt
      have hu := he.table.used
      have hf := he.table.fits
      cases b
      · obtain ⟨b', t'', k', g1, g2, g3, g4, g5, g6, -⟩ := evict_ok he.table cap
        unfold Table.setCapacity at h1
        rw [g1] at h1
        cases b'
        · exfalso
          have hev : evictLoop e.table.acked cap e.table.dyn e.table.used = .ok (true, e.table.dyn, e.table.used) := by
            cases hd : e.table.dyn with
            | nil => rfl
            | cons x xs => unfold evictLoop; rw [if_pos (by omega)]
          unfold Table.evictTo at g1
          rw [hev] at g1
          cases g1
        · cases h1
      · rfl
    have hcond : (if cap < e.table.capacity then e.table.canEvictTo cap else .ok true) = (.ok b : Except Err Bool) := by
      by_cases hlt : cap < e.table.capacity
      · rw [if_pos hlt]; exact h5
      · rw [if_neg hlt, hfit hlt]
    rw [hcond]
    cases b
    · exact hsame false
    · simp only
      unfold EncW.write
      by_cases hr : (encodeInt encoderCapacity cap).length ≤ room
      · simp only
        rw [if_pos hr]
        simp only
        rw [h1]
        simp only
        obtain ⟨hb, hk⟩ := setCapacity_at he.table h1
        have hL := (later_setCapacity he.table h1).2.1
        have hacked : t'.acked = e.table.acked := h2.acked
        refine ⟨true, _, [.capacity cap], rfl, ?_, rfl, hb, rfl⟩
        refine ⟨⟨h3, ?_, he.unacked, ?_, ?_, ?_, ?_, ?_⟩, ?_, ?_, ?_, by simp only; omega, ?_, rfl, rfl, rfl, rfl, rfl, Or.inr ⟨rfl, ?_⟩⟩
        · show t'.acked = some (t'.acked.getD 0)
          rw [hacked, he.acked]; rfl
        · intro i d hd
          exact he.refs i d (hL.kept i d hd (by have := (at_of_index h3 hd).2; omega))
        · intro i hi
          obtain ⟨d, hd⟩ := Option.isSome_iff_exists.mp (he.held i hi)
          show (t'.at i).isSome
          rw [hk i d hd (by rw [he.refs i d hd]; exact hi)]; rfl
        · show e.blockedCnt = e.unacked.blocked (t'.acked.getD 0)
          rw [hacked]; exact he.blocked
        · show cap / 32 = t'.capacity / 32
          rw [h4]; rfl
        · show t'.dropped ≤ t'.acked.getD 0
          rw [hacked]
          exact setCapacity_old he.table h1 he.acked he.old
        · have := (writes_nil e.nextCapacity).snoc (huff := e.huff) (i := .capacity cap) hc2 (marshal_capacity _ _) (by
              intro c hc; rw [hn]; cases hc; rfl)
          exact this
        · show runAll (execTable m) e.table.plain [.capacity cap] = .ok t'.plain
          simp only [runAll, execTable]
          rw [if_neg (by omega), plain_setCapacity h1]
        · show t'.acked.getD 0 = e.table.acked.getD 0
          rw [hacked]
        · rintro x hx ⟨d, hd1, hd2⟩
          exact ⟨d, hk _ d hd1 (by rw [he.refs _ d hd1]; exact hx), hd2⟩
        · show e.nextCapacity = some t'.capacity
          rw [hn, h4]; rfl
      · simp only
        rw [if_neg hr]
        exact hsame false

theorem sendUpdates_ok {m : Nat} {e : Enc} (he : e.WF) (hm : ∀ c ∈ e.nextCapacity, c ≤ m ∧ c < 2 ^ 64) (room : Nat) :
    ∃ b w' is, EncW.sendUpdates ⟨e, room, []⟩ = .ok (b, w') ∧ Sent m e w'.enc is w'.out ∧ w'.enc.unacked = e.unacked ∧
      w'.enc.table.base = e.table.base ∧ w'.enc.blockedCnt = e.blockedCnt := by
  have hsame : ∀ b : Bool, ∃ b' w' is, (Except.ok (b, (⟨e, room, []⟩ : EncW)) : Except Err (Bool × EncW)) = .ok (b', w') ∧ Sent m e w'.enc is w'.out ∧
      w'.enc.unacked = e.unacked ∧ w'.enc.table.base = e.table.base ∧ w'.enc.blockedCnt = e.blockedCnt := fun b =>
    ⟨b, _, [], rfl, ⟨he, writes_nil _, rfl, rfl, Nat.le_refl _, fun _ _ h => h, rfl, rfl, rfl, rfl, rfl, Or.inl ⟨rfl, rfl⟩⟩, rfl, rfl, rfl⟩
  unfold EncW.sendUpdates
  simp only
  cases hs : e.stream with
  | noStream => exact hsame true
  | uninitialized =>
    simp only
    by_cases hr : 1 ≤ room
    · rw [if_pos hr]
      have he' : Enc.WF { e with stream := .initialized } := ⟨he.table, he.acked, he.unacked, he.refs, he.held, he.blocked, he.entries, he.old⟩
      obtain ⟨b, w', is, h1, h2, h3, h4, h5⟩ := maybeCapacity_ok (m := m) he' hm (room - 1)
      exact ⟨b, w', is, h1, ⟨h2.wf, h2.writes, h2.run, h2.acked, h2.base, h2.kept, h2.maxBlocked, h2.maxTracked, h2.huff, h2.reader, h2.maxTableSize, h2.next⟩, h3, h4, h5⟩
    · rw [if_neg hr]; exact hsame false
  | initialized => exact maybeCapacity_ok he hm room

/-- Encoding a header block. -/
theorem encode_ok {m : Nat} {e : Enc} (he : e.WF) (hm : ∀ c ∈ e.nextCapacity, c ≤ m ∧ c < 2 ^ 64) (room : Nat) {h : List Field}
    (stream : Nat) (hf : ∀ f ∈ h, FieldOk e.huff f) (hsz : listSize h ≤ maxLiteral) (hb : e.table.base + h.length < 2 ^ 62) :
    ∃ b w' need is, EncW.encode ⟨e, room, []⟩ h stream = .ok (b, w') ∧ Sent m e w'.enc is w'.out ∧
      Block.Ok w'.enc.maxEntries ⟨b, need, h⟩ ∧ (∀ x ∈ need, w'.enc.table.Has x) ∧ (need.map Prod.fst).Nodup ∧
      w'.enc.unacked = (if need = [] then e.unacked else e.unacked.push stream (need.map Prod.fst)) ∧
      w'.enc.table.base ≤ e.table.base + h.length ∧ (e.blockedCnt ≤ e.maxBlocked → w'.enc.blockedCnt ≤ e.maxBlocked) ∧
      (e.unacked.length ≤ e.maxTracked → w'.enc.unacked.length ≤ e.maxTracked) := by
  obtain ⟨ok, w1, is1, s1, s2, s3, s4, s5⟩ := sendUpdates_ok (m := m) he hm room
  unfold EncW.encode
  rw [s1]
  simp only
  generalize hwb : w1.enc.isBlocker stream = wasB
  generalize hct : (wasB || w1.enc.unacked.has stream || decide (w1.enc.unacked.length < w1.enc.maxTracked)) = canTrack
  generalize hcb : (wasB || (canTrack && decide (w1.enc.blockedCnt < w1.enc.maxBlocked))) = canBlock
  have hbt : canBlock = true → canTrack = true := by
    rw [← hcb, ← hct]
    cases wasB <;> simp
    intro h _; exact h
  have hwf := s2.wf
  have hinit : LoopInv e.nextCapacity m w1.enc e.table.plain 0 canTrack canBlock [] ⟨w1, HEnc.new w1.enc.table.base w1.enc.huff w1.enc.maxEntries, [], !ok⟩ [] is1 :=
    { enc := rfl, table := hwf.table, acked := rfl, cap := rfl, nodup := List.nodup_nil
      refs := by intro i d hd; simpa using hwf.refs i d hd
      held := hwf.held
      baseLo := Nat.le_refl _, baseHi := Nat.le_refl _
      kept := fun _ _ h => h
      hbase := rfl, hhuff := rfl, hent := rfl, maxRef := rfl, needs := rfl
      has := by simp
      decodes := decodes_nil _
      long := Nat.le_refl _
      writes := s2.writes, run := s2.run
      block := by simp
      track := fun _ => rfl
      old := hwf.old
      known := hwf.acked }
  obtain ⟨l, need, is, l1, l2⟩ := hinit.fields hwf hbt (gs := h) (by rw [s2.huff]; exact hf) (by rw [s4]; omega)
  rw [l1]
  simp only
  rw [List.nil_append] at l2
  have hneed : need = [] ↔ l.refs = [] := by rw [← l2.needs]; simp
  have hent : l.w.enc.maxEntries = w1.enc.maxEntries := by rw [l2.enc]
  have hcap := l2.cap
  have hun : l.w.enc.unacked = w1.enc.unacked := by rw [l2.enc]
  have hack : l.w.enc.acked = w1.enc.acked := l2.acked_eq
  have hcnt : l.w.enc.blockedCnt = w1.enc.blockedCnt := by rw [l2.enc]
  have hmb : l.w.enc.maxBlocked = w1.enc.maxBlocked := by rw [l2.enc]
  have hmt : l.w.enc.maxTracked = w1.enc.maxTracked := by rw [l2.enc]
  -- the block
  have hblock : ∃ b, l.h.finish = .ok b ∧ Block.Ok l.w.enc.maxEntries ⟨b, need, h⟩ := by
    unfold HEnc.finish
    rw [l2.maxRef]
    by_cases hn : need = []
    · rw [if_pos hn]
      refine ⟨_, rfl, hsz, w1.enc.table.base, l.h.buf, by rw [s4]; omega, l2.decodes, l2.long, ?_⟩
      rw [if_pos hn, l2.hbase]
    · rw [if_neg hn]
      obtain ⟨x, hx1, hx2⟩ := reqOf_mem hn
      have hpos : 0 < w1.enc.maxEntries := by
        obtain ⟨d, hd1, -⟩ := l2.has x hx1
        have h1 := (at_some hd1).1
        have h2 := total_ge l.w.enc.table.dyn
        have h3 := List.length_pos_iff.mpr (List.ne_nil_of_mem h1)
        have h4 := l2.table.used
        have h5 := l2.table.fits
        have h6 := hwf.entries
        rw [h6]
        omega
      simp only
      rw [l2.hent, if_neg (by omega)]
      refine ⟨_, rfl, hsz, w1.enc.table.base, l.h.buf, by rw [s4]; omega, l2.decodes, l2.long, ?_⟩
      rw [if_neg hn, hent]
      refine ⟨hpos, ?_⟩
      simp only
      rw [l2.hbase, show reqOf need - 1 + 1 = reqOf need by omega]
  obtain ⟨b, b1, b2⟩ := hblock
  rw [b1]
  simp only
  -- the encoder after it
  generalize hu' : (if need = [] then w1.enc.unacked else w1.enc.unacked.push stream (need.map Prod.fst)) = u'
  have hu'wf : u'.WF := by
    rw [← hu']
    split
    · exact hwf.unacked
    · rename_i hn
      exact hwf.unacked.push stream ⟨by simpa using hn, by rw [l2.needs]; exact l2.nodup⟩
  have hu'cnt : ∀ i, u'.cnt i = w1.enc.unacked.cnt i + if i ∈ l.refs then 1 else 0 := by
    intro i
    rw [← hu']
    split
    · rename_i hn
      rw [hneed.mp hn]; simp
    · rw [cnt_push hwf.unacked, l2.needs]
  have hlen : w1.enc.unacked.length ≤ w1.enc.maxTracked → u'.length ≤ w1.enc.maxTracked := by
    intro hle
    rw [← hu']
    split
    · exact hle
    · rename_i hn
      rw [length_push]
      split
      · exact hle
      · rename_i hh
        have htr : canTrack = true := by
          cases hc : canTrack
          · exact absurd (hneed.mpr (l2.track hc)) hn
          · rfl
        rw [← hct] at htr
        simp only [Bool.or_eq_true, decide_eq_true_eq] at htr
        rcases htr with (htr | htr) | htr
        · rw [htr] at hwb
          unfold Enc.isBlocker at hwb
          have : w1.enc.unacked.get stream ≠ [] := by
            intro hc; rw [hc] at hwb; cases hwb
          exact absurd (hwf.unacked.has.mpr this) hh
        · exact absurd htr hh
        · omega
  have hnew : blocking w1.enc.acked (u'.get stream) = (wasB || l.refs.any (fun i => decide (w1.enc.acked ≤ i))) := by
    rw [← hu', ← hwb]
    unfold Enc.isBlocker
    split
    · rename_i hn
      rw [hneed.mp hn]; simp
    · rw [get_push, if_pos rfl, l2.needs]
      simp [blocking]
  have hbsum : u'.blocked w1.enc.acked + (if wasB then 1 else 0) =
      w1.enc.unacked.blocked w1.enc.acked + if blocking w1.enc.acked (u'.get stream) then 1 else 0 := by
    have hg : blocking w1.enc.acked (w1.enc.unacked.get stream) = wasB := hwb
    by_cases hn : need = []
    · rw [if_pos hn] at hu'
      rw [← hu', hg]
    · rw [if_neg hn] at hu'
      have := sum_push hwf.unacked.keys (fun l => if blocking w1.enc.acked l then 1 else 0) rfl stream (need.map Prod.fst)
      rw [hu'] at this
      simp only [hg] at this
      have hg2 : u'.get stream = w1.enc.unacked.get stream ++ [need.map Prod.fst] := by rw [← hu', get_push, if_pos rfl]
      rw [hg2]
      exact this
  have hblk := hwf.blocked
  have hwf' : ∀ n, n = u'.blocked w1.enc.acked → Enc.WF { l.w.enc with blockedCnt := n, unacked := u' } := by
    intro n hn
    refine ⟨l2.table, ?_, hu'wf, ?_, ?_, ?_, ?_, ?_⟩
    · show l.w.enc.table.acked = some (l.w.enc.table.acked.getD 0)
      rw [l2.acked, hwf.acked]; rfl
    · intro i d hd
      show d.refs = u'.cnt i
      rw [hu'cnt]; exact l2.refs i d hd
    · intro i hi
      change 0 < u'.cnt i at hi
      rw [hu'cnt] at hi
      by_cases hin : i ∈ l.refs
      · rw [← l2.needs] at hin
        obtain ⟨x, hx1, hx2⟩ := List.mem_map.mp hin
        obtain ⟨d, hd, -⟩ := l2.has x hx1
        rw [← hx2]
        show (l.w.enc.table.at x.1).isSome
        rw [hd]; rfl
      · rw [if_neg hin] at hi
        exact l2.held i hi
    · show n = u'.blocked l.w.enc.acked
      rw [hack]; exact hn
    · show l.w.enc.maxEntries = l.w.enc.table.capacity / 32
      rw [hent, hcap]; exact hwf.entries
    · show l.w.enc.table.dropped ≤ l.w.enc.acked
      rw [hack]; exact l2.old
  have hsent : ∀ n, n = u'.blocked w1.enc.acked → Sent m e { l.w.enc with blockedCnt := n, unacked := u' } is l.w.out := by
    intro n hn
    refine ⟨hwf' n hn, l2.writes, l2.run, ?_, ?_, ?_, ?_, ?_, ?_, ?_, ?_, ?_⟩
    · exact hack.trans s2.acked
    · have := l2.baseLo
      show e.table.base ≤ l.w.enc.table.base
      omega
    · intro x hx1 hx2
      exact l2.kept x (by rw [s3]; exact hx1) (s2.kept x hx1 hx2)
    · exact hmb.trans s2.maxBlocked
    · exact hmt.trans s2.maxTracked
    · show l.w.enc.huff = e.huff
      rw [l2.enc]; exact s2.huff
    · show l.w.enc.reader = e.reader
      rw [l2.enc]; exact s2.reader
    · show l.w.enc.maxTableSize = e.maxTableSize
      rw [l2.enc]; exact s2.maxTableSize
    · show (l.w.enc.nextCapacity = _ ∧ l.w.enc.table.capacity = _) ∨ (l.w.enc.nextCapacity = none ∧ _ = some l.w.enc.table.capacity)
      have hnc : l.w.enc.nextCapacity = w1.enc.nextCapacity := by rw [l2.enc]
      rw [hnc, hcap]; exact s2.next
  have hunacked : u' = if need = [] then e.unacked else e.unacked.push stream (need.map Prod.fst) := by rw [← hu', s3]
  have hbase : l.w.enc.table.base ≤ e.table.base + h.length := by have := l2.baseHi; omega
  have hlen' : e.unacked.length ≤ e.maxTracked → u'.length ≤ e.maxTracked := by
    rw [← s3, ← s2.maxTracked]; exact hlen
  by_cases hc : (!wasB && l.refs.any (fun i => decide (l.w.enc.acked ≤ i))) = true
  · rw [if_pos hc]
    rw [hack] at hc
    rw [Bool.and_eq_true] at hc
    have hw0 : wasB = false := by simpa using hc.1
    rw [hnew, hw0, hc.2] at hbsum
    simp at hbsum
    have hne : l.refs ≠ [] := by
      intro hcc
      rw [hcc] at hc
      simp at hc
    have hcb' : canBlock = true := by
      cases hcbb : canBlock
      · exfalso
        obtain ⟨i, hi1, hi2⟩ := List.any_eq_true.mp hc.2
        have := l2.block hcbb i hi1
        simp at hi2
        omega
      · rfl
    rw [← hcb, hw0] at hcb'
    simp only [Bool.false_or, Bool.and_eq_true, decide_eq_true_eq] at hcb'
    rw [if_pos (by rw [hcnt, hmb]; omega)]
    have hpush : l.w.enc.unacked.push stream l.refs = u' := by
      rw [← hu', if_neg (fun hn => hne (hneed.mp hn)), hun, l2.needs]
    rw [hpush]
    refine ⟨b, _, need, is, rfl, hsent _ (by rw [hcnt, hblk]; omega), b2, l2.has, by rw [l2.needs]; exact l2.nodup, hunacked, hbase, ?_, hlen'⟩
    intro _
    show l.w.enc.blockedCnt + 1 ≤ e.maxBlocked
    rw [hcnt, ← s2.maxBlocked]
    omega
  · rw [if_neg hc]
    rw [hack] at hc
    have hpush : (if l.refs = [] then l.w.enc.unacked else l.w.enc.unacked.push stream l.refs) = u' := by
      rw [← hu', hun, l2.needs]
      by_cases hn : need = []
      · rw [if_pos hn, if_pos (hneed.mp hn)]
      · rw [if_neg hn, if_neg (fun hh => hn (hneed.mpr hh))]
    rw [hpush]
    have hcnt' : l.w.enc.blockedCnt = u'.blocked w1.enc.acked := by
      rw [hcnt, hblk]
      rw [hnew] at hbsum
      cases hwB : wasB
      · rw [hwB] at hc hbsum
        simp only [Bool.not_false, Bool.true_and, Bool.not_eq_true] at hc
        rw [hc] at hbsum
        simp at hbsum; omega
      · rw [hwB] at hbsum
        simp at hbsum; omega
    refine ⟨b, _, need, is, rfl, hsent _ hcnt', b2, l2.has, by rw [l2.needs]; exact l2.nodup, hunacked, hbase, ?_, hlen'⟩
    intro hle
    show l.w.enc.blockedCnt ≤ e.maxBlocked
    rw [hcnt, s5]; exact hle

end Neqo.Qp
