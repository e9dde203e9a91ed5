import Verif.Qpack.SysTable

/-!
# Field sections between an encoder and a decoder: C41, C42, C63, C64

`Reach c S`: the two ends, set up with `c`, are in the state `S` after any operations in any order.  Everything that was
written on the two streams, or as a header block, arrives in order on its stream, in pieces of any size, and after any
delay.
-/
namespace Neqo.Qp
open Neqo.Codec Spec

/-- What happens after `S`. -/
inductive Steps : Sys → Sys → Prop
  | refl {S} : Steps S S
  | step {S S' S'' o} : Steps S S' → o.Ok S' → S'.step o = .ok S'' → Steps S S''

/-- What can happen. -/
def Reach (c : Config) (S : Sys) : Prop := Steps (Sys.init c) S

/-! ## Concrete histories -/

instance (huff : Bool) (f : Field) : Decidable (FieldOk huff f) :=
  decidable_of_iff (utf8 f.1 = true ∧ Short huff f.1 ∧ Short huff f.2) ⟨fun h => ⟨h.1, h.2.1, h.2.2⟩, fun h => ⟨h.1, h.2, h.3⟩⟩

instance (S : Sys) (o : Op) : Decidable (o.Ok S) := by cases o <;> unfold Op.Ok <;> infer_instance

/-- A list of operations, each of which meets the conditions. -/
def Sys.run (S : Sys) : List Op → Option Sys
  | [] => some S
  | o :: os =>
    if o.Ok S then
      match S.step o with
      | .ok S' => S'.run os
      | .error _ => none
    else none

theorem Steps.run {S S' S'' : Sys} (h : Steps S S') {os : List Op} (hr : S'.run os = some S'') : Steps S S'' := by
  induction os generalizing S' with
  | nil => cases hr; exact h
  | cons o os ih =>
    unfold Sys.run at hr
    by_cases ho : o.Ok S'
    · rw [if_pos ho] at hr
      cases hs : S'.step o with
      | error e => rw [hs] at hr; cases hr
      | ok T => rw [hs] at hr; exact ih (h.step ho hs) hr
    · rw [if_neg ho] at hr; cases hr

/-! ## The invariant -/

theorem Steps.keeps {S S' : Sys} (h : Steps S S') {blocks : Nat → List Block} {N : Nat → Prop} {I P : List EncInstr} {Q : List DecInstr}
    (hi : InvAt S blocks N I P Q) : ∃ blocks' N' I' P' Q', InvAt S' blocks' N' I' P' Q' ∧ ∃ is, I' ++ P' = I ++ P ++ is := by
  induction h with
  | refl => exact ⟨_, _, _, _, _, hi, [], by simp⟩
  | step _ ho hs ih =>
    obtain ⟨b, N', I', P', Q', h1, is, h2⟩ := ih
    obtain ⟨T, b', N'', I'', P'', Q'', g1, g2, js, g3⟩ := inv_step h1 ho
    rw [hs] at g1
    cases g1
    exact ⟨_, _, _, _, _, g2, is ++ js, by rw [g3, h2, List.append_assoc]⟩

theorem Reach.inv {c : Config} (hc : c.Ok) {S : Sys} (h : Reach c S) : ∃ blocks N I P Q, InvAt S blocks N I P Q := by
  obtain ⟨b, N, I, P, Q, h1, -⟩ := h.keeps (inv_init hc)
  exact ⟨_, _, _, _, _, h1⟩

/-- What the ends were set up with does not change. -/
theorem step_config {S S' : Sys} {o : Op} (h : S.step o = .ok S') :
    S'.dec.maxBlocked = S.dec.maxBlocked ∧ S'.dec.maxTableSize = S.dec.maxTableSize := by
  cases o with
  | settings =>
    unfold Sys.step at h; simp only at h
    split at h
    · cases h
    · split at h
      · cases h
      · cases h; exact ⟨rfl, rfl⟩
  | stream =>
    unfold Sys.step at h; simp only at h
    split at h
    · cases h
    · cases h; exact ⟨rfl, rfl⟩
  | updates room =>
    unfold Sys.step at h; simp only at h
    split at h
    · cases h
    · cases h; exact ⟨rfl, rfl⟩
  | encode room s fs =>
    unfold Sys.step at h; simp only at h
    split at h
    · cases h
    · cases h; exact ⟨rfl, rfl⟩
  | toDecoder n =>
    unfold Sys.step Dec.receive at h; simp only at h
    split at h
    · cases h
    · rename_i d hd
      cases h
      split at hd
      · cases hd
      · cases hd
      · split at hd
        · cases hd; exact ⟨rfl, rfl⟩
        · cases hd; exact ⟨rfl, rfl⟩
  | toEncoder n =>
    unfold Sys.step at h; simp only at h
    split at h
    · cases h
    · cases h; exact ⟨rfl, rfl⟩
  | send =>
    unfold Sys.step Dec.send at h; simp only at h
    split at h
    · cases h
    · rename_i d hd
      cases h
      split at hd
      · cases hd
      · split at hd
        · cases hd; exact ⟨rfl, rfl⟩
        · cases hd; exact ⟨rfl, rfl⟩
  | decode s =>
    unfold Sys.step Dec.decode at h; simp only at h
    split at h
    · cases h; exact ⟨rfl, rfl⟩
    · split at h
      · cases h; exact ⟨rfl, rfl⟩
      · split at h
        · cases h
        · rename_i d hd
          cases h
          split at hd
          · cases hd
          · cases hd
          · split at hd
            · cases hd; exact ⟨rfl, rfl⟩
            · split at hd
              · cases hd
              · cases hd; exact ⟨rfl, rfl⟩
          · cases hd
        · rename_i d hd
          cases h
          split at hd
          · cases hd
          · cases hd
          · split at hd
            · cases hd
            · split at hd <;> cases hd
          · cases hd
            show (if _ then _ else _ : Dec).maxBlocked = _ ∧ (if _ then _ else _ : Dec).maxTableSize = _
            split <;> exact ⟨rfl, rfl⟩
  | cancel s =>
    unfold Sys.step Dec.cancelStream at h
    cases h
    show (if _ then _ else _ : Dec).maxBlocked = _ ∧ (if _ then _ else _ : Dec).maxTableSize = _
    split <;> exact ⟨rfl, rfl⟩

theorem Reach.config {c : Config} {S : Sys} (h : Reach c S) : S.dec.maxBlocked = c.decBlocked ∧ S.dec.maxTableSize = c.decMax := by
  induction h with
  | refl => exact ⟨rfl, rfl⟩
  | step _ _ hs ih =>
    obtain ⟨h1, h2⟩ := step_config hs
    exact ⟨h1.trans ih.1, h2.trans ih.2⟩

/-! ## C41: the tables are synchronised -/

/-- What a table has: the index, name and value of each entry. -/
def Table.content (t : Table) : List (Nat × Bytes × Bytes) := t.dyn.map (fun e => (e.base, e.name, e.value))

theorem content_plain (t : Table) : t.plain.content = t.content := by
  unfold Table.content Table.plain
  simp [DEntry.plain]

/-- An instruction of the encoder is written as the standard says, and what was written is read as that instruction. -/
theorem C41_instruction {huff : Bool} {i : EncInstr} (hi : i.Ok huff) :
    ∃ b, i.marshal huff = .ok b ∧ EncIs i b ∧ ∀ rest, EncR.read .start (b ++ rest) = .done i .start rest :=
  enc_read_marshal hi

/-- Any bytes that are read as an instruction are one. -/
theorem C41_instruction_form {bs rest : Bytes} {i : EncInstr} {s : EncR} (h : EncR.read .start bs = .done i s rest) :
    ∃ p, bs = p ++ rest ∧ EncIs i p := enc_read_sound h

example : (EncInstr.insertLiteral [97] [98, 99]).marshal false = .ok [0x41, 97, 2, 98, 99] ∧
    EncR.read .start [0x41, 97, 2, 98, 99, 7] = .done (.insertLiteral [97] [98, 99]) .start [7] := by decide +kernel

theorem later_process {m : Nat} {t t' : Table} (hw : t.WF) {r r' : EncR} {bs : Bytes}
    (h : process EncR.read (execTable m) t r bs = .ok (t', r')) : t'.WF ∧ Later t t' := by
  have := process_ind enc_framing (exec := execTable m) (J := fun u => u.WF ∧ Later t u) (A := fun _ => True) (bad := fun _ => False)
    (fun u i hu => by
      cases hx : execTable m u i with
      | error e => exact id
      | ok u' =>
        obtain ⟨h1, h2, -⟩ := later_exec hu.1 hx
        exact ⟨h1, hu.2.trans h2⟩)
    (fun s bs _ => by cases EncR.read s bs <;> simp) trivial (bs := bs) (s := r) ⟨hw, Later.refl _⟩ trivial
  rw [h] at this
  exact this.1

/-- It makes no difference in which pieces the bytes reach the decoder, whatever they are. -/
theorem C41_any_pieces {d : Dec} (hd : d.table.WF) (a b : Bytes) :
    (d.receive (a ++ b)).map Prod.snd = match d.receive a with
      | .error e => .error e
      | .ok (_, d') => (d'.receive b).map Prod.snd := by
  have hp := process_append enc_framing (exec := execTable d.maxTableSize) (t := d.table) (s := d.reader) (a := a) (b := b)
  unfold Dec.receive
  rw [hp]
  cases ha : process EncR.read (execTable d.maxTableSize) d.table d.reader a with
  | error e => cases e <;> rfl
  | ok x =>
    obtain ⟨t, r⟩ := x
    simp only
    obtain ⟨hw, hl⟩ := later_process hd ha
    by_cases h1 : t.base = d.table.base
    · rw [if_pos h1]
      simp only
      cases hb : process EncR.read (execTable d.maxTableSize) t r b with
      | error e => cases e <;> rfl
      | ok y =>
        obtain ⟨t', r'⟩ := y
        simp only [h1]
    · rw [if_neg h1]
      simp only
      cases hb : process EncR.read (execTable d.maxTableSize) t r b with
      | error e => cases e <;> rfl
      | ok y =>
        obtain ⟨t', r'⟩ := y
        obtain ⟨-, hl'⟩ := later_process hw hb
        have h2 := hl.base
        have h3 := hl'.base
        simp only
        rw [if_neg (show ¬ t'.base = d.table.base by omega)]
        by_cases h4 : t'.base = t.base
        · rw [if_pos h4]
          simp only [Except.map, h4]
        · rw [if_neg h4]
          simp only [Except.map, List.filter_filter]
          congr 2
          apply List.filter_congr
          intro x _
          by_cases hx : x.2 ≤ t'.base <;> by_cases hy : x.2 ≤ t.base <;> simp [hx, hy]
          omega

set_option synthInstance.maxSize 2000 in
/-- An instruction in two pieces: the stream that waits for the insert goes on after the second. -/
example : (match (Dec.new 200 5).receive [0x3f, 0x81, 0x01, 0x41, 97] with
      | .ok (_, d) =>
        match ({ d with blocked := [(4, 1)] } : Dec).receive [2, 98, 99] with
        | .ok (l, d) => some (l, d.table.content, d.blocked)
        | .error _ => none
      | .error _ => none : Option (List Nat × List (Nat × Bytes × Bytes) × List (Nat × Nat))) =
    some ([4], [(0, [97], [98, 99])], []) := by decide +kernel

theorem Steps.keepsT {c : Config} {S S' : Sys} (h : Steps S S') {I P : List EncInstr} (hi : InvT c S I P) :
    ∃ I' P', InvT c S' I' P' ∧ ∃ is, I' ++ P' = I ++ P ++ is := by
  induction h with
  | refl => exact ⟨_, _, hi, [], by simp⟩
  | step _ ho hs ih =>
    obtain ⟨I', P', h1, is, h2⟩ := ih
    obtain ⟨I'', P'', g1, js, g2⟩ := h1.step ho hs
    exact ⟨_, _, g1, is ++ js, by rw [g2, h2, List.append_assoc]⟩

theorem Reach.invT {c : Config} {S : Sys} (h : Reach c S) : ∃ I P, InvT c S I P := by
  obtain ⟨I, P, h1, -⟩ := h.keepsT (invT_init c)
  exact ⟨_, _, h1⟩

/-- A decoder that got all that the encoder wrote has the encoder's table. -/
theorem C41_synchronised {c : Config} {S : Sys} (h : Reach c S) (he : S.toDec = []) :
    S.dec.table.content = S.enc.table.content ∧ S.dec.table.base = S.enc.table.base ∧ S.dec.table.capacity = S.enc.table.capacity := by
  obtain ⟨I, P, hi⟩ := h.invT
  have h1 := hi.toDec
  rw [he] at h1
  have h2 := hi.run
  rw [h1.empty.1] at h2
  have h3 : S.dec.table = S.enc.table.plain := Except.ok.inj h2
  rw [h3, content_plain]
  exact ⟨rfl, rfl, rfl⟩

/-- The encoder's table at one time, and the decoder's at that time or later: one becomes the other. -/
theorem tables {c : Config} {S S' : Sys} (h : Reach c S) (h' : Steps S S') :
    ∃ is, (∀ v, EncInstr.capacity v ∈ is → v = min c.encMax c.decMax) ∧ S.enc.table.capacity ≤ min c.encMax c.decMax ∧
      S'.dec.table.capacity ≤ min c.encMax c.decMax ∧ S.enc.table.plain.WF ∧ S'.dec.table.WF ∧
      (runAll (execTable c.decMax) S.enc.table.plain is = .ok S'.dec.table ∨
       runAll (execTable c.decMax) S'.dec.table is = .ok S.enc.table.plain) := by
  obtain ⟨I, P, hi⟩ := h.invT
  obtain ⟨I', P', hi', js, hjs⟩ := h'.keepsT hi
  have r1 : runAll (execTable c.decMax) (Table.new false) (I ++ P) = .ok S.enc.table.plain := by
    rw [runAll_append, hi.past]; exact hi.run
  have hc2 := run_cap wf_new hi'.past (fun v hv => hi'.caps v (List.mem_append_left _ hv)) (Nat.zero_le _)
  rcases prefixes (a := I ++ P) (x := js) (b := I') (y := P') hjs.symm with ⟨z, hz⟩ | ⟨z, hz⟩
  · refine ⟨z, fun v hv => hi'.caps v (by rw [hz]; simp [hv]), hi.cap, hc2, plain_wf hi.enc.table, hi'.dec, Or.inl ?_⟩
    have r2 := hi'.past
    rw [hz, runAll_append, r1] at r2
    exact r2
  · refine ⟨z, fun v hv => hi'.caps v (by rw [hjs, hz]; simp [hv]), hi.cap, hc2, plain_wf hi.enc.table, hi'.dec, Or.inr ?_⟩
    rw [hz, runAll_append, hi'.past] at r1
    exact r1

/-- The decoder's table is the encoder's table as it was with the same number of inserts. -/
theorem C41_same_inserts {c : Config} {S S' : Sys} (h : Reach c S) (h' : Steps S S')
    (hb : S.enc.table.base = S'.dec.table.base) : S'.dec.table.content = S.enc.table.content := by
  obtain ⟨is, h1, h2, h3, h4, h5, h6 | h6⟩ := tables h h'
  · have := run_same h4 h6 h1 h2 hb.symm
    rw [← content_plain S.enc.table]
    unfold Table.content
    rw [this]
  · have := run_same h5 h6 h1 h3 hb
    rw [← content_plain S.enc.table]
    unfold Table.content
    rw [this]

/-- An index is the same field for the encoder, at any time, and for the decoder, at that time or later. -/
theorem C41_same_field {c : Config} {S S' : Sys} (h : Reach c S) (h' : Steps S S') {i : Nat} {f g : Bytes × Bytes}
    (hf : (i, f) ∈ S.enc.table.content) (hg : (i, g) ∈ S'.dec.table.content) : f = g := by
  obtain ⟨is, h1, h2, h3, h4, h5, h6⟩ := tables h h'
  rw [← content_plain] at hf
  obtain ⟨d, hd, he⟩ := List.mem_map.mp hf
  obtain ⟨d', hd', he'⟩ := List.mem_map.mp hg
  obtain ⟨hb, rfl⟩ := Prod.mk.inj he
  obtain ⟨hb', rfl⟩ := Prod.mk.inj he'
  have a1 := at_mem h4 hd
  have a2 := at_mem h5 hd'
  rw [hb] at a1
  rw [hb'] at a2
  rcases h6 with h6 | h6
  · have := (later_run h4 h6).2.1.kept _ _ a2 (at_iff h4 |>.mp a1 |> fun hh => by
      have := (List.getElem?_eq_some_iff.mp hh.2).1
      have := h4.len
      unfold Table.dropped at *
      omega)
    rw [a1] at this
    cases this; rfl
  · have := (later_run h5 h6).2.1.kept _ _ a1 (at_iff h5 |>.mp a2 |> fun hh => by
      have := (List.getElem?_eq_some_iff.mp hh.2).1
      have := h5.len
      unfold Table.dropped at *
      omega)
    rw [a2] at this
    cases this; rfl

/-- Two ends with tables of 200 bytes; at most two streams may wait. -/
def sampleConfig : Config := ⟨200, 10, false, 200, 2⟩

theorem sampleConfig_ok : sampleConfig.Ok := by constructor <;> decide

/-- Two streams with the same two fields; nothing has reached the decoder, except half of the encoder's first
insert. -/
def sampleOps : List Op :=
  [.settings, .stream, .encode 100 4 [([97], [98, 99]), ([100], [101])], .encode 100 8 [([97], [98, 99]), ([100], [101])],
   .decode 4, .toDecoder 5]

set_option synthInstance.maxSize 2000 in
/-- The encoder has two entries, the decoder none, stream 4 waits. -/
theorem sample_state : ((Sys.init sampleConfig).run sampleOps).map (fun S =>
      (S.enc.table.content, S.dec.table.content, S.toDec, S.dec.blocked, S.enc.unacked)) =
    some ([(0, [97], [98, 99]), (1, [100], [101])], [], [2, 98, 99, 0x41, 100, 1, 101], [(4, 2)], [(4, [[0, 1]]), (8, [[0, 1]])]) := by
  decide +kernel

set_option synthInstance.maxSize 2000 in
/-- The rest arrives: the tables are the same, and both streams can be decoded. -/
theorem sample_end : ((Sys.init sampleConfig).run (sampleOps ++ [.toDecoder 100, .decode 4, .decode 8])).map (fun S =>
      (S.dec.table.content, S.toDec, S.delivered 4, S.delivered 8)) =
    some ([(0, [97], [98, 99]), (1, [100], [101])], [], [[([97], [98, 99]), ([100], [101])]], [[([97], [98, 99]), ([100], [101])]]) := by
  decide +kernel

theorem run_append {S : Sys} {a b : List Op} : S.run (a ++ b) = (S.run a).bind (fun S => S.run b) := by
  induction a generalizing S with
  | nil => rfl
  | cons o os ih =>
    rw [List.cons_append]
    by_cases ho : o.Ok S
    · simp only [Sys.run, if_pos ho]
      cases S.step o with
      | error e => rfl
      | ok T => exact ih
    · simp only [Sys.run, if_neg ho]; rfl

theorem run_map {α : Type} {S : Sys} {os : List Op} {f : Sys → α} {v : α} (h : (S.run os).map f = some v) :
    ∃ T, S.run os = some T ∧ f T = v := by
  cases hr : S.run os with
  | none => rw [hr] at h; cases h
  | some T => rw [hr] at h; exact ⟨T, rfl, Option.some.inj h⟩

/-- There is a state with the tables in step, after one in which they were not. -/
example : ∃ S S', Reach sampleConfig S ∧ Steps S S' ∧ S'.toDec = [] ∧ S.dec.table.content = [] ∧
    S.enc.table.content = [(0, [97], [98, 99]), (1, [100], [101])] ∧ S'.dec.table.content = S.enc.table.content := by
  obtain ⟨S, h1, h2⟩ := run_map sample_state
  obtain ⟨S', h3, h4⟩ := run_map sample_end
  rw [run_append, h1] at h3
  simp only [Prod.mk.injEq] at h2 h4
  exact ⟨S, S', Steps.refl.run h1, Steps.refl.run h3, h4.2.1, h2.2.1, h2.1, h4.1.trans h2.1.symm⟩

/-! ## C42: header blocks round trip -/

/-- Nothing fails: no operation has an error, at either end. -/
theorem C42_no_error_partial {c : Config} (hc : c.Ok) {S : Sys} (h : Reach c S) {o : Op} (ho : o.Ok S) : ∃ S', S.step o = .ok S' := by
  obtain ⟨b, N, I, P, Q, hi⟩ := h.inv hc
  obtain ⟨S', _, _, _, _, _, h1, -⟩ := inv_step hi ho
  exact ⟨S', h1⟩

/-- Field sections are delivered as they were sent, in order. -/
theorem C42_delivered_partial {c : Config} (hc : c.Ok) {S : Sys} (h : Reach c S) (s : Nat) : S.delivered s <+: S.sent s := by
  obtain ⟨b, N, I, P, Q, hi⟩ := h.inv hc
  exact ⟨_, hi.order s⟩

/-- A block that was not decoded is decoded as the field section it was made of if the decoder has all inserts that it
refers to, and otherwise waits.  The encoder has the same references. -/
theorem C42_round_trip_partial {c : Config} (hc : c.Ok) {S : Sys} (h : Reach c S) {s : Nat} (hs : S.cancelled s = false)
    {b : Bytes} {fs : List Field} (hb : (b, fs) ∈ S.queue s) :
    ∃ refs : List Nat, (refs = [] ∨ refs ∈ S.enc.unacked.get s) ∧
      ((∀ i ∈ refs, i < S.dec.table.base) → ∃ req, decodeBlock S.dec.table S.dec.maxEntries b = .ok (.headers req fs)) ∧
      (¬ (∀ i ∈ refs, i < S.dec.table.base) → ∃ req, decodeBlock S.dec.table S.dec.maxEntries b = .ok (.blocked req)) := by
  obtain ⟨bl, N, I, P, Q, hi⟩ := h.inv hc
  have hN : ¬ N s := by intro hn; have := hi.gone s hn; rw [hs] at this; cases this
  rw [← hi.queue s] at hb
  obtain ⟨k, hk, he⟩ := List.mem_map.mp hb
  obtain ⟨rfl, rfl⟩ := Prod.mk.inj he
  have hd := hi.decode hN hk
  refine ⟨k.need.map Prod.fst, ?_, ?_, ?_⟩
  · cases hn : k.need with
    | nil => exact Or.inl rfl
    | cons x l => rw [← hn]; exact Or.inr (hi.held hN hk (x := x) (by rw [hn]; simp)).1
  · intro hall
    refine ⟨reqOf k.need, ?_⟩
    rw [hd, if_neg]
    by_cases hn : k.need = []
    · rw [hn, reqOf_nil]; omega
    · obtain ⟨x, hx, hr⟩ := reqOf_mem hn
      have := hall x.1 (List.mem_map.mpr ⟨x, hx, rfl⟩)
      omega
  · intro hall
    refine ⟨reqOf k.need, ?_⟩
    rw [hd, if_pos]
    by_contra hle
    apply hall
    intro i hi'
    obtain ⟨x, hx, rfl⟩ := List.mem_map.mp hi'
    have := reqOf_lt hx
    omega

/-- With all inserts there, every block of a stream can be decoded, in its turn. -/
theorem C42_complete_partial {c : Config} (hc : c.Ok) {S : Sys} (h : Reach c S) (he : S.toDec = []) {s : Nat}
    (hs : S.cancelled s = false) {b : Bytes} {fs : List Field} {rest : List (Bytes × List Field)} (hb : S.queue s = (b, fs) :: rest) :
    ∃ S', S.step (.decode s) = .ok S' ∧ S'.delivered s = S.delivered s ++ [fs] ∧ S'.queue s = rest := by
  obtain ⟨S', h1⟩ := C42_no_error_partial hc h (o := .decode s) trivial
  obtain ⟨refs, r1, r2, -⟩ := C42_round_trip_partial hc h hs (b := b) (fs := fs) (by rw [hb]; simp)
  obtain ⟨bl, N, I, P, Q, hi⟩ := h.inv hc
  have hbase := (C41_synchronised h he).2.1
  obtain ⟨req, hreq⟩ := r2 (by
    intro i him
    rcases r1 with rfl | r1
    · cases him
    · have := hi.enc.held i ((cnt_pos hi.enc.unacked).mpr ⟨s, refs, r1, him⟩)
      obtain ⟨d, hd⟩ := Option.isSome_iff_exists.mp this
      have h3 := (at_iff hi.enc.table).mp hd
      have := (List.getElem?_eq_some_iff.mp h3.2).1
      have := hi.enc.table.len
      unfold Table.dropped at *
      omega)
  refine ⟨S', h1, ?_⟩
  unfold Sys.step Dec.decode at h1
  simp only [hs, hb, hreq, Bool.false_eq_true, if_false] at h1
  cases h1
  exact ⟨upd_same _ _ _, upd_same _ _ _⟩

/-- Both streams of the sample history have a block that waits, and both can be decoded later. -/
example : ∃ S S', Reach sampleConfig S ∧ Steps S S' ∧ S.queue 4 ≠ [] ∧ S.queue 8 ≠ [] ∧ S.cancelled 4 = false ∧
    S'.delivered 8 = [[([97], [98, 99]), ([100], [101])]] := by
  obtain ⟨S, h1, h2⟩ := run_map (f := fun S => (S.queue 4 == [], S.queue 8 == [], S.cancelled 4)) (S := Sys.init sampleConfig)
    (os := sampleOps) (v := (false, false, false)) (by decide +kernel)
  obtain ⟨S', h3, h4⟩ := run_map sample_end
  rw [run_append, h1] at h3
  simp only [Prod.mk.injEq, beq_eq_false_iff_ne] at h2 h4
  exact ⟨S, S', Steps.refl.run h1, Steps.refl.run h3, h2.1, h2.2.1, h2.2.2, h4.2.2.2⟩

/-- The encoder would use 100 bytes, the decoder allows 200. -/
def mismatchConfig : Config := ⟨100, 10, false, 200, 2⟩

/-- A field section of one new field on a stream of its own, with all that follows from it. -/
def oneSection (n : UInt8) : List Op := [.encode 100 n.toNat [([96 + n], [n])], .toDecoder 100, .decode n.toNat, .send, .toEncoder 100]

set_option synthInstance.maxSize 2000 in
/-- The property fails for an encoder that uses less than the decoder allows: it writes the number of inserts that a block
needs modulo a number that follows from its own capacity (encoder.rs:94-113, 335-362), and the decoder takes the one that
follows from what it allowed (decoder.rs:43-60).  After six field sections both tables are the same, and nothing is under way.  The
last block, which needs six inserts, waits for twelve. -/
theorem C42_max_entries_mismatch : ((Sys.init mismatchConfig).run ([.settings, .stream] ++ oneSection 1 ++ oneSection 2 ++
      oneSection 3 ++ oneSection 4 ++ oneSection 5 ++ oneSection 6)).map (fun S =>
        (S.dec.table == S.enc.table.plain, S.dec.table.base, S.toDec, S.dec.blocked, S.sent 6, S.delivered 6)) =
    some (true, 6, [], [(6, 12)], [[([102], [6])]], []) := by
  decide +kernel

set_option synthInstance.maxSize 2000 in
/-- It waits forever: after another section the limit of two streams is reached, and the encoder inserts nothing more. -/
theorem C42_mismatch_deadlock : ((Sys.init mismatchConfig).run ([.settings, .stream] ++ oneSection 1 ++ oneSection 2 ++
      oneSection 3 ++ oneSection 4 ++ oneSection 5 ++ oneSection 6 ++ oneSection 7 ++ oneSection 8 ++ oneSection 9)).map (fun S =>
        (S.dec.table.base, S.toDec, S.dec.blocked, S.delivered 6, S.delivered 7, S.delivered 9)) =
    some (7, [], [(6, 12), (7, 13)], [], [], [[([105], [9])]]) := by
  decide +kernel

/-! ## C63: references are given back -/

/-- Once the decoder's instructions have arrived, a stream with nothing to decode holds no entries, and any other no more
blocks than were not decoded. -/
theorem C63_given_back_partial {c : Config} (hc : c.Ok) {S : Sys} (h : Reach c S) (he : S.dec.sendBuf = []) {s : Nat}
    (hs : S.cancelled s = false) :
    (S.queue s = [] → S.enc.unacked.get s = []) ∧ (S.enc.unacked.get s).length ≤ (S.queue s).length := by
  obtain ⟨bl, N, I, P, Q, hi⟩ := h.inv hc
  have hN : ¬ N s := by intro hn; have := hi.gone s hn; rw [hs] at this; cases this
  have h1 := hi.toEnc
  rw [he] at h1
  have hsim := hi.sim
  rw [h1.empty.1] at hsim
  have hu : S.enc.unacked.get s = pending (bl s) := by
    generalize ha : S.enc.acked = a at hsim
    generalize hg : S.enc.unacked.get = U at hsim
    cases hsim with
    | done hd => exact hd s hN
  have hq := hi.queue s
  have hlen : (pending (bl s)).length ≤ (S.queue s).length := by
    rw [← hq]
    unfold pending
    simp only [List.length_map]
    exact List.length_filter_le _ _
  rw [hu]
  refine ⟨fun hqe => ?_, hlen⟩
  rw [hqe] at hlen
  exact List.length_eq_zero_iff.mp (Nat.le_zero.mp hlen)

/-- With nothing to decode and nothing under way, no entry is referenced: the encoder may evict all of them. -/
theorem C63_all_free_partial {c : Config} (hc : c.Ok) {S : Sys} (h : Reach c S) (he : S.dec.sendBuf = [])
    (hs : ∀ s, S.cancelled s = false ∧ S.queue s = []) : ∀ e ∈ S.enc.table.dyn, e.refs = 0 := by
  obtain ⟨bl, N, I, P, Q, hi⟩ := h.inv hc
  intro e hm
  rw [hi.enc.refs e.base e (at_mem hi.enc.table hm)]
  by_contra hne
  obtain ⟨s, b, hb, -⟩ := (cnt_pos hi.enc.unacked).mp (Nat.pos_of_ne_zero hne)
  rw [(C63_given_back_partial hc h he (hs s).1).1 (hs s).2] at hb
  cases hb

theorem run_last {e e' : Enc} {is : List DecInstr} {s : Nat} (h : runAll Enc.exec e (is ++ [.cancel s]) = .ok e') :
    e'.unacked.get s = [] := by
  rw [runAll_append] at h
  cases hr : runAll Enc.exec e is with
  | error x => rw [hr] at h; cases h
  | ok e1 =>
    rw [hr] at h
    simp only [runAll] at h
    cases hx : e1.exec (.cancel s) with
    | error x => rw [hx] at h; cases h
    | ok e2 =>
      rw [hx] at h
      cases h
      unfold Enc.exec Enc.cancelled at hx
      simp only at hx
      cases hrr : removeRefs e1.table (e1.unacked.get s).flatten with
      | error x => rw [hrr] at hx; cases hx
      | ok t =>
        rw [hrr] at hx
        simp only at hx
        have hg : (e1.unacked.remove s).get s = [] := by
          rw [get_remove]; simp
        split at hx
        · split at hx
          · cases hx
          · cases hx; exact hg
        · cases hx; exact hg

/-- A stream that is given up while the decoder has a table holds no entries once the encoder has heard of it. -/
theorem C63_cancelled_partial {c : Config} (hc : c.Ok) {S S1 S2 : Sys} (h : Reach c S) {s : Nat} (hs : s < 2 ^ 62)
    (hcap : 0 < S.dec.table.capacity) (h1 : S.step (.cancel s) = .ok S1) {n : Nat} (hn : S1.dec.sendBuf.length ≤ n)
    (h2 : S1.step (.toEncoder n) = .ok S2) : S2.enc.unacked.get s = [] := by
  obtain ⟨bl, N, I, P, Q, hi⟩ := h.inv hc
  have hS1 : S1 = { S with
      dec := { S.dec with
        blocked := S.dec.blocked.filter (fun x => x.1 ≠ s)
        sendBuf := S.dec.sendBuf ++ (DecInstr.cancel s).marshal }
      cancelled := upd S.cancelled s true } := by
    unfold Sys.step Dec.cancelStream at h1
    simp only [if_pos hcap] at h1
    cases h1; rfl
  have hh : Holds DecR.read .start S.enc.reader (S.dec.sendBuf ++ (DecInstr.cancel s).marshal) (Q ++ [.cancel s]) :=
    hi.toEnc.push dec_framing (dec_read_marshal (i := .cancel s) (show _ < 2 ^ 64 by omega)).2
  have hp := process_collect dec_framing (exec := Enc.exec) hh.1 S.enc
  rw [hS1] at hn h2
  unfold Sys.step Enc.receive at h2
  simp only [List.take_of_length_le hn, hp] at h2
  cases hr : runAll Enc.exec S.enc (Q ++ [.cancel s]) with
  | error x => rw [hr] at h2; cases x <;> cases h2
  | ok e =>
    rw [hr] at h2
    cases h2
    have := run_last hr
    exact this

set_option synthInstance.maxSize 2000 in
/-- Two streams refer to an entry; one is decoded, one given up; the entry is free. -/
example : ((Sys.init sampleConfig).run (sampleOps ++ [.toDecoder 100, .decode 4, .cancel 8, .toEncoder 100])).map (fun S =>
      (S.enc.table.dyn.map (fun e => e.refs), S.enc.unacked, S.dec.sendBuf)) = some ([0, 0], [], []) := by decide +kernel

set_option synthInstance.maxSize 2000 in
/-- The property fails for a stream that is given up before the instruction with the capacity has arrived: the decoder
then sends no cancellation (decoder.rs:155-160), because its own table has no capacity yet, although the encoder's has.
Everything has arrived, and the entry is referenced for the rest of the connection. -/
theorem C63_pinned : ((Sys.init sampleConfig).run [.settings, .stream, .encode 100 4 [([97], [98, 99])], .cancel 4, .toDecoder 100,
      .send, .toEncoder 100]).map (fun S =>
        (S.enc.table.dyn.map (fun e => e.refs), S.enc.unacked, S.toDec, S.dec.sendBuf, S.cancelled 4)) =
    some ([1], [(4, [[0]])], [], [], true) := by decide +kernel

/-- The encoder keeps track of no more streams than it was told. -/
theorem C63_tracked_partial {c : Config} (hc : c.Ok) {S : Sys} (h : Reach c S) : S.enc.unacked.length ≤ S.enc.maxTracked := by
  obtain ⟨bl, N, I, P, Q, hi⟩ := h.inv hc
  exact hi.tracked

/-! ## C64: blocked streams -/

/-- No more streams have a block that cannot be decoded yet than the decoder allows, whether it has seen the block or
not. -/
theorem C64_limit_partial {c : Config} (hc : c.Ok) {S : Sys} (h : Reach c S) {L : List Nat} (hn : L.Nodup)
    (hL : ∀ s ∈ L, S.cancelled s = false ∧ ∃ x ∈ S.queue s, ∃ req, decodeBlock S.dec.table S.dec.maxEntries x.1 = .ok (.blocked req)) :
    L.length ≤ c.decBlocked := by
  obtain ⟨bl, N, I, P, Q, hi⟩ := h.inv hc
  have := blocked_streams (u := S.enc.unacked) (a := S.enc.acked) hn (by
    intro s hs
    obtain ⟨h1, x, hx, req, hd⟩ := hL s hs
    have hN : ¬ N s := by intro hn; have := hi.gone s hn; rw [h1] at this; cases this
    rw [← hi.queue s] at hx
    obtain ⟨k, hk, rfl⟩ := List.mem_map.mp hx
    have hd' := hi.decode hN hk
    refine hi.isBlocking hN hk ?_
    by_contra hlt
    rw [if_neg hlt] at hd'
    simp only at hd
    rw [hd'] at hd
    cases hd)
  rw [← hi.enc.blocked] at this
  have h1 := hi.blocked
  have h2 := hi.maxBlocked
  rw [h.config.1] at h2
  omega

/-- The decoder has no more streams on its list. -/
theorem C64_list_partial {c : Config} (hc : c.Ok) {S : Sys} (h : Reach c S) : S.dec.blocked.length ≤ c.decBlocked := by
  obtain ⟨bl, N, I, P, Q, hi⟩ := h.inv hc
  have := blocked_streams (u := S.enc.unacked) (a := S.enc.acked) hi.keys (by
    intro r hr
    obtain ⟨x, hx, rfl⟩ := List.mem_map.mp hr
    obtain ⟨g1, g2, b, g3, g4, g5⟩ := hi.waiting x hx
    exact hi.isBlocking g2 g3 (by rw [g5]; exact g1))
  rw [List.length_map, ← hi.enc.blocked] at this
  have h1 := hi.blocked
  have h2 := hi.maxBlocked
  rw [h.config.1] at h2
  omega

set_option synthInstance.maxSize 2000 in
/-- Two streams wait, as many as are allowed; the third has its field as a literal. -/
example : ((Sys.init sampleConfig).run [.settings, .stream, .encode 100 4 [([97], [98])], .encode 100 8 [([99], [98])],
      .encode 100 12 [([100], [98])], .decode 4, .decode 8, .decode 12]).map (fun S =>
        (S.dec.blocked, S.delivered 12, S.enc.blockedCnt)) = some ([(4, 1), (8, 2)], [[([100], [98])]], 2) := by decide +kernel

/-- The property fails, too, for an encoder that uses less than the decoder allows.  Streams 6, 20 and 21 refer to an entry
that the decoder has and has acknowledged.  To the decoder all three wait, and the third is an error that closes the
connection. -/
theorem C64_limit_exceeded : ((Sys.init mismatchConfig).run ([.settings, .stream] ++ oneSection 1 ++ oneSection 2 ++
      oneSection 3 ++ oneSection 4 ++ oneSection 5 ++ oneSection 6 ++
      [.encode 100 20 [([102], [6])], .encode 100 21 [([102], [6])], .decode 20])).map (fun S =>
        (S.enc.acked, S.enc.blockedCnt, S.dec.blocked.map Prod.fst,
          match S.step (.decode 21) with | .error e => some e | .ok _ => none)) =
    some (6, 0, [6, 20], some .decompression) := by
  decide +kernel

end Neqo.Qp
