import Verif.Qpack.System
import Verif.Qpack.EncodeL

/-! # Invariants of an encoder and a decoder -/
namespace Neqo.Qp
open Neqo.Codec

theorem upd_same {α : Type} (f : Nat → α) (s : Nat) (v : α) : upd f s v s = v := by simp [upd]

theorem upd_other {α : Type} (f : Nat → α) {s j : Nat} (v : α) (h : j ≠ s) : upd f s v j = f j := by simp [upd, h]

theorem upd_upd {α : Type} (f : Nat → α) (s : Nat) (v w : α) : upd (upd f s v) s w = upd f s w := by
  funext j; unfold upd; split <;> rfl

theorem upd_comm {α : Type} (f : Nat → α) {s r : Nat} (h : s ≠ r) (v w : α) : upd (upd f s v) r w = upd (upd f r w) s v := by
  funext j
  unfold upd
  by_cases h1 : j = r
  · rw [if_pos h1, if_neg (by rw [h1]; exact fun hh => h hh.symm), if_pos h1]
  · rw [if_neg h1]
    split
    · rfl
    · rfl

theorem upd_self {α : Type} (f : Nat → α) (s : Nat) : upd f s (f s) = f := by
  funext j; unfold upd; split
  · rename_i h; rw [h]
  · rfl

/-! ## What the decoder said and the encoder did not hear -/

/-- The encoder, with `a` inserts acknowledged and the blocks `U`, will after the instructions `Q` have `a'` inserts
acknowledged, and the blocks `P` of all streams that were not cancelled. -/
inductive Sim : Nat → (Nat → List (List Nat)) → List DecInstr → Nat → (Nat → Prop) → (Nat → List (List Nat)) → Prop
  | done {a U N P} : (∀ s, ¬ N s → U s = P s) → Sim a U [] a N P
  | inc {a U Q a' N P n} : 0 < n → Sim (a + n) U Q a' N P → Sim a U (.increment n :: Q) a' N P
  | ack {a U Q a' N P s b l} : U s = b :: l → Sim (ackTo a b) (upd U s l) Q a' N P → Sim a U (.headerAck s :: Q) a' N P
  | cancel {a U Q a' N P s} : N s → .headerAck s ∉ Q → Sim a (upd U s []) Q a' N P → Sim a U (.cancel s :: Q) a' N P

theorem Sim.mono {a a' : Nat} {U : Nat → List (List Nat)} {Q : List DecInstr} {N : Nat → Prop} {P : Nat → List (List Nat)}
    (h : Sim a U Q a' N P) : a ≤ a' := by
  induction h with
  | done => exact Nat.le_refl _
  | inc _ _ ih => omega
  | @ack a _ _ _ _ _ _ b _ _ _ ih => exact le_trans (ackTo_max a b).1 ih
  | cancel _ _ _ ih => exact ih

theorem Sim.congr {a a' : Nat} {U : Nat → List (List Nat)} {Q : List DecInstr} {N : Nat → Prop} {P P' : Nat → List (List Nat)}
    (h : Sim a U Q a' N P) (hp : ∀ s, ¬ N s → P s = P' s) : Sim a U Q a' N P' := by
  induction h with
  | done hu => exact .done (fun s hs => (hu s hs).trans (hp s hs))
  | inc hn _ ih => exact .inc hn (ih hp)
  | ack hb _ ih => exact .ack hb (ih hp)
  | cancel hn hq _ ih => exact .cancel hn hq (ih hp)

/-- The blocks of a stream that was not cancelled are the last ones of those that the encoder knows of. -/
theorem Sim.suffix {a a' : Nat} {U : Nat → List (List Nat)} {Q : List DecInstr} {N : Nat → Prop} {P : Nat → List (List Nat)}
    (h : Sim a U Q a' N P) {s : Nat} (hs : ¬ N s) : ∃ l, U s = l ++ P s := by
  induction h with
  | done hu => exact ⟨[], hu s hs⟩
  | inc _ _ ih => exact ih hs
  | @ack _ U _ _ _ _ r b l hb _ ih =>
    obtain ⟨k, hk⟩ := ih hs
    by_cases hr : s = r
    · subst hr
      rw [upd_same] at hk
      exact ⟨b :: k, by rw [hb, hk]; rfl⟩
    · rw [upd_other _ _ hr] at hk
      exact ⟨k, hk⟩
  | @cancel _ U _ _ _ _ r hn _ _ ih =>
    obtain ⟨k, hk⟩ := ih hs
    rw [upd_other _ _ (fun hh => hs (by rw [hh]; exact hn))] at hk
    exact ⟨k, hk⟩

/-- The encoder sends one block more. -/
theorem Sim.push {a a' : Nat} {U : Nat → List (List Nat)} {Q : List DecInstr} {N : Nat → Prop} {P : Nat → List (List Nat)}
    (h : Sim a U Q a' N P) (s : Nat) (b : List Nat) : Sim a (upd U s (U s ++ [b])) Q a' N (upd P s (P s ++ [b])) := by
  induction h with
  | done hu =>
    refine .done (fun r hr => ?_)
    by_cases hrs : r = s
    · rw [hrs, upd_same, upd_same, hu s (by rw [← hrs]; exact hr)]
    · rw [upd_other _ _ hrs, upd_other _ _ hrs]; exact hu r hr
  | inc hn _ ih => exact .inc hn ih
  | @ack _ U _ _ _ P r c l hb _ ih =>
    by_cases hr : r = s
    · subst hr
      refine .ack (b := c) (l := l ++ [b]) (by rw [upd_same, hb]; rfl) ?_
      rw [upd_upd]
      rw [upd_same, upd_upd] at ih
      exact ih
    · refine .ack (b := c) (l := l) (by rw [upd_other _ _ hr]; exact hb) ?_
      rw [upd_comm _ (fun hh => hr hh.symm)]
      rw [upd_other _ _ (fun hh => hr hh.symm)] at ih
      exact ih
  | @cancel _ U _ _ N P r hn hq hsim ih =>
    refine .cancel hn hq ?_
    by_cases hr : r = s
    · subst hr
      rw [upd_upd]
      refine hsim.congr (fun j hj => ?_)
      rw [upd_other _ _ (fun hh => hj (by rw [hh]; exact hn))]
    · rw [upd_comm _ (fun hh => hr hh.symm)]
      rw [upd_other _ _ (fun hh => hr hh.symm)] at ih
      exact ih

/-- The decoder has decoded a block. -/
theorem Sim.sendAck {a a' : Nat} {U : Nat → List (List Nat)} {Q : List DecInstr} {N : Nat → Prop} {P : Nat → List (List Nat)}
    (h : Sim a U Q a' N P) {s : Nat} (hs : ¬ N s) {b : List Nat} {l : List (List Nat)} (hp : P s = b :: l) :
    Sim a U (Q ++ [.headerAck s]) (ackTo a' b) N (upd P s l) := by
  induction h with
  | done hu =>
    refine .ack (b := b) (l := l) (by rw [hu s hs]; exact hp) (.done fun r hr => ?_)
    by_cases hrs : r = s
    · rw [hrs, upd_same, upd_same]
    · rw [upd_other _ _ hrs, upd_other _ _ hrs]; exact hu r hr
  | inc hn _ ih => exact .inc hn (ih hs hp)
  | ack hb _ ih => exact .ack hb (ih hs hp)
  | @cancel _ _ Q _ _ _ r hn hq _ ih =>
    refine .cancel hn ?_ (ih hs hp)
    intro hc
    rcases List.mem_append.mp hc with hc | hc
    · exact hq hc
    · simp at hc
      exact hs (by rw [← hc]; exact hn)

/-- The decoder acknowledges inserts. -/
theorem Sim.sendInc {a a' : Nat} {U : Nat → List (List Nat)} {Q : List DecInstr} {N : Nat → Prop} {P : Nat → List (List Nat)}
    (h : Sim a U Q a' N P) {n : Nat} (hn : 0 < n) : Sim a U (Q ++ [.increment n]) (a' + n) N P := by
  induction h with
  | done hu => exact .inc hn (.done hu)
  | inc hm _ ih => exact .inc hm ih
  | ack hb _ ih => exact .ack hb ih
  | cancel hm hq _ ih => exact .cancel hm (by simpa using hq) ih

/-- The decoder cancels a stream. -/
theorem Sim.sendCancel {a a' : Nat} {U : Nat → List (List Nat)} {Q : List DecInstr} {N : Nat → Prop} {P : Nat → List (List Nat)}
    (h : Sim a U Q a' N P) (s : Nat) : Sim a U (Q ++ [.cancel s]) a' (fun r => N r ∨ r = s) P := by
  induction h with
  | done hu =>
    refine .cancel (Or.inr rfl) (by simp) (.done fun r hr => ?_)
    rw [upd_other _ _ (fun hh => hr (Or.inr hh))]
    exact hu r (fun hh => hr (Or.inl hh))
  | inc hm _ ih => exact .inc hm ih
  | ack hb _ ih => exact .ack hb ih
  | cancel hm hq _ ih => exact .cancel (Or.inl hm) (by simpa using hq) ih

theorem has_plain {t t' : Table} (h : t'.plain = t.plain) {x : Nat × Field} (hx : t.Has x) : t'.Has x := by
  obtain ⟨d, hd1, hd2⟩ := hx
  have h1 := plain_at t x.1
  have h2 := plain_at t' x.1
  rw [h, h1, hd1] at h2
  cases hd : t'.at x.1 with
  | none => rw [hd] at h2; cases h2
  | some d' =>
    rw [hd] at h2
    refine ⟨d', rfl.trans (hd ▸ rfl), ?_⟩
    have h3 := Option.some.inj h2
    rw [← hd2]
    have hn : d.plain.name = d'.plain.name := congrArg DEntry.name (show d.plain = d'.plain from h3)
    have hv : d.plain.value = d'.plain.value := congrArg DEntry.value (show d.plain = d'.plain from h3)
    change d.name = d'.name at hn
    change d.value = d'.value at hv
    rw [hn, hv]

/-- The encoder gets instructions. -/
theorem Sim.run {Q Q' : List DecInstr} : ∀ {e : Enc} {a' : Nat} {N : Nat → Prop} {P : Nat → List (List Nat)}, e.WF →
    e.table.base < 2 ^ 64 → Sim e.acked e.unacked.get (Q ++ Q') a' N P → a' ≤ e.table.base →
    ∃ e', runAll Enc.exec e Q = .ok e' ∧ e'.WF ∧ Sim e'.acked e'.unacked.get Q' a' N P ∧ e'.table.plain = e.table.plain ∧
      e'.blockedCnt ≤ e.blockedCnt ∧ e'.unacked.length ≤ e.unacked.length ∧ e' = { e with table := e'.table, unacked := e'.unacked, blockedCnt := e'.blockedCnt } := by
  induction Q with
  | nil => intro e a' N P he _ hs _; exact ⟨e, rfl, he, hs, rfl, Nat.le_refl _, Nat.le_refl _, rfl⟩
  | cons i Q ih =>
    intro e a' N P he h64 hs ha
    have key : ∃ e1, e.exec i = .ok e1 ∧ Sim e1.acked e1.unacked.get (Q ++ Q') a' N P := by
      rw [List.cons_append] at hs
      cases hs with
      | @inc _ _ _ _ _ _ n hn hs' =>
        have := hs'.mono
        obtain ⟨e1, q1, q2, q3, q4, q5, q6⟩ := insertCount_ok he.weak (n := n) (by omega) h64
        refine ⟨e1, ?_, by rw [q3, q4]; exact hs'⟩
        show (if n = 0 then _ else _) = _
        rw [if_neg (by omega)]; exact q1
      | @ack _ _ _ _ _ _ s b l hb hs' =>
        obtain ⟨e1, q1, q2, q3, q4, q5, -⟩ := headerAck_ok he h64 hb
        refine ⟨e1, q1, ?_⟩
        have : e1.unacked.get = upd e.unacked.get s l := by
          funext j; rw [q5]; rfl
        rw [q3, this]; exact hs'
      | @cancel _ _ _ _ _ _ s hn hq hs' =>
        obtain ⟨e1, q1, q2, q3, q4, q5, -⟩ := cancelled_ok he s
        refine ⟨e1, q1, ?_⟩
        have : e1.unacked.get = upd e.unacked.get s [] := by
          funext j; rw [q5]; rfl
        rw [q3, this]; exact hs'
    obtain ⟨e1, k1, k2⟩ := key
    rcases exec_any he h64 i with ⟨e1', g1, g2, g3, g4, g5, g6⟩ | g
    · rw [k1] at g1
      cases g1
      have hb : e1.table.base = e.table.base := by
        have := congrArg Table.base g3; exact this
      obtain ⟨e', r1, r2, r3, r4, r5, r7, r6⟩ := ih g2 (by rw [hb]; exact h64) k2 (by rw [hb]; exact ha)
      refine ⟨e', ?_, r2, r3, r4.trans g3, le_trans r5 g5, le_trans r7 g4, ?_⟩
      · unfold runAll; rw [k1]; exact r1
      · rw [r6, g6]
    · rw [k1] at g; cases g

/-! ## Streams that wait -/

theorem nodup_length {L M : List Nat} (hn : L.Nodup) (h : ∀ x ∈ L, x ∈ M) : L.length ≤ M.length := by
  induction L generalizing M with
  | nil => simp
  | cons x L ih =>
    rw [List.nodup_cons] at hn
    have hx := h x (by simp)
    have hp : M.erase x ≠ M ∨ True := Or.inr trivial
    have := ih (M := M.erase x) hn.2 (fun y hy => by
      have hne : y ≠ x := fun hc => hn.1 (by rw [← hc]; exact hy)
      exact (List.mem_erase_of_ne hne).mpr (h y (List.mem_cons_of_mem _ hy)))
    rw [List.length_erase_of_mem hx] at this
    have := List.length_pos_of_mem hx
    simp only [List.length_cons]
    omega

theorem blocked_streams {u : Unacked} {a : Nat} {L : List Nat} (hn : L.Nodup) (h : ∀ s ∈ L, blocking a (u.get s) = true) :
    L.length ≤ u.blocked a := by
  rw [← blocked_eq]
  have := nodup_length (M := (u.filter (fun x => blocking a x.2)).map Prod.fst) hn (by
    intro s hs
    have hb := h s hs
    have hne : u.get s ≠ [] := by intro hc; rw [hc] at hb; cases hb
    exact List.mem_map.mpr ⟨(s, u.get s), List.mem_filter.mpr ⟨mem_of_get hne, hb⟩, rfl⟩)
  simpa using this

/-! ## The invariant -/

/-- The entries that the blocks with references refer to. -/
def pending (l : List Block) : List (List Nat) := (l.filter (fun b => !b.need.isEmpty)).map (fun b => b.need.map Prod.fst)

theorem pending_append (a b : List Block) : pending (a ++ b) = pending a ++ pending b := by simp [pending]

theorem pending_one (b : Block) : pending [b] = if b.need = [] then [] else [b.need.map Prod.fst] := by
  unfold pending
  cases h : b.need <;> simp [h]

theorem pending_cons (b : Block) (l : List Block) : pending (b :: l) = pending [b] ++ pending l := by
  rw [← pending_append]; rfl

/-- The state of the two ends: the blocks that were not decoded, the streams that were cancelled at the decoder, the
instructions that the decoder carried out, those on the way to it, and those on the way to the encoder. -/
structure InvAt (S : Sys) (blocks : Nat → List Block) (N : Nat → Prop) (I P : List EncInstr) (Q : List DecInstr) : Prop where
  enc : S.enc.WF
  dec : S.dec.table.WF
  queue : ∀ s, (blocks s).map (fun b => (b.bytes, b.fields)) = S.queue s
  toDec : Holds EncR.read .start S.dec.reader S.toDec P
  run : runAll (execTable S.dec.maxTableSize) S.dec.table P = .ok S.enc.table.plain
  past : runAll (execTable S.dec.maxTableSize) (Table.new false) I = .ok S.dec.table
  caps : ∀ c, EncInstr.capacity c ∈ I ++ P → c = S.dec.maxTableSize
  toEnc : Holds DecR.read .start S.enc.reader S.dec.sendBuf Q
  sim : Sim S.enc.acked S.enc.unacked.get Q S.dec.ackedInserts N (fun s => pending (blocks s))
  inserts : S.dec.ackedInserts ≤ S.dec.table.base
  ok : ∀ s, ∀ b ∈ blocks s, b.Ok S.dec.maxEntries
  has : ∀ s, ¬ N s → ∀ b ∈ blocks s, ∀ x ∈ b.need, S.enc.table.Has x
  gone : ∀ s, N s → S.cancelled s = true
  waiting : ∀ x ∈ S.dec.blocked, S.dec.table.base < x.2 ∧ ¬ N x.1 ∧ ∃ b ∈ blocks x.1, b.need ≠ [] ∧ reqOf b.need = x.2
  keys : (S.dec.blocked.map Prod.fst).Nodup
  entries : S.dec.maxEntries = S.dec.maxTableSize / 32
  small : S.dec.maxTableSize ≤ 2 ^ 30 - 1
  limit : S.dec.maxTableSize ≤ S.enc.maxTableSize
  cap : S.enc.table.capacity = 0 ∨ S.enc.table.capacity = S.dec.maxTableSize
  next : ∀ c ∈ S.enc.nextCapacity, c = S.dec.maxTableSize
  base : S.enc.table.base < 2 ^ 62
  blocked : S.enc.blockedCnt ≤ S.enc.maxBlocked
  tracked : S.enc.unacked.length ≤ S.enc.maxTracked
  maxBlocked : S.enc.maxBlocked ≤ S.dec.maxBlocked
  blocked16 : S.dec.maxBlocked < 2 ^ 16
  ids : ∀ s, blocks s ≠ [] → s < 2 ^ 62
  order : ∀ s, S.delivered s ++ (S.queue s).map Prod.snd = S.sent s

/-- The conditions that histories meet. -/
def Op.Ok (S : Sys) : Op → Prop
  | .stream => S.enc.stream = .noStream
  | .encode _ s fs => s < 2 ^ 62 ∧ (∀ f ∈ fs, FieldOk S.enc.huff f) ∧ listSize fs ≤ maxLiteral ∧ S.enc.table.base + fs.length < 2 ^ 62
  | .cancel s => s < 2 ^ 62
  | _ => True

structure Config.Ok (c : Config) : Prop where
  small : c.decMax ≤ 2 ^ 30 - 1
  limit : c.decMax ≤ c.encMax
  blocked : c.decBlocked < 2 ^ 16

theorem inv_init {c : Config} (hc : c.Ok) : InvAt (Sys.init c) (fun _ => []) (fun _ => False) [] [] [] where
  enc := enc_new_wf ..
  dec := ⟨by simp [Sys.init, Dec.new, Table.new], by simp [Sys.init, Dec.new, Table.new], rfl, by simp [Sys.init, Dec.new, Table.new],
    by simp [Sys.init, Dec.new, Table.new]⟩
  queue := fun _ => rfl
  toDec := Holds.nil enc_framing
  run := rfl
  past := rfl
  caps := by simp
  toEnc := Holds.nil dec_framing
  sim := .done (fun _ _ => rfl)
  inserts := Nat.le_refl _
  ok := by simp
  has := by simp
  gone := by simp
  waiting := by simp [Sys.init, Dec.new]
  keys := by simp [Sys.init, Dec.new]
  entries := by simp [Sys.init, Dec.new, Nat.shiftRight_eq_div_pow]
  small := hc.small
  limit := hc.limit
  cap := Or.inl rfl
  next := by simp [Sys.init, Enc.new]
  base := by simp [Sys.init, Enc.new, Table.new]
  blocked := Nat.le_refl _
  tracked := Nat.zero_le _
  maxBlocked := Nat.zero_le _
  blocked16 := hc.blocked
  ids := by simp
  order := fun _ => rfl

end Neqo.Qp
