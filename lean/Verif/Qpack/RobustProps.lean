import Verif.Qpack.Robust

/-!
# QPACK and a peer that sends anything (C65)

An end by itself: what comes from the peer is any bytes at all, in any pieces and at any time.
-/
namespace Neqo.Qp
open Neqo.Codec

/-- What happens to a decoder. -/
inductive DOp where
  /-- Bytes come on the encoder's stream. -/
  | receive (bs : Bytes)
  /-- A field section comes on a stream. -/
  | decode (bs : Bytes) (stream : Nat)
  | cancel (stream : Nat)
  | send

def DOp.apply (d : Dec) : DOp → Except Err Dec
  | .receive bs => (d.receive bs).map Prod.snd
  | .decode bs s => (d.decode bs s).map Prod.snd
  | .cancel s => .ok (d.cancelStream s)
  | .send => d.send

/-- A history; an error closes the connection and ends it. -/
def runD (d : Dec) : List DOp → Except Err Dec
  | [] => .ok d
  | o :: os =>
    match o.apply d with
    | .error e => .error e
    | .ok d => runD d os

/-- What happens to an encoder. -/
inductive EOp where
  /-- The settings of the peer. -/
  | settings (capacity blocked : Nat)
  /-- The encoder gets its stream. -/
  | stream
  | updates (room : Nat)
  /-- A field section is sent; the encoder's stream has room for so many bytes. -/
  | encode (room stream : Nat) (fields : List Field)
  /-- Bytes come on the decoder's stream. -/
  | receive (bs : Bytes)

def EOp.apply (e : Enc) : EOp → Except Err Enc
  | .settings c b =>
    match e.setMaxCapacity c with
    | .error x => .error x
    | .ok e => e.setMaxBlocked b
  | .stream => e.addSendStream
  | .updates room => (EncW.sendUpdates ⟨e, room, []⟩).map fun x => x.2.enc
  | .encode room s fs => (EncW.encode ⟨e, room, []⟩ fs s).map fun x => x.2.enc
  | .receive bs => e.receive bs

/-- What the end that has the encoder must keep to: it adds the stream once, and sends fields with names of UTF-8,
of a size for which the length of no literal overflows, less than 384 KiB at once, and not 2^62 in all. -/
def EOp.Ok (e : Enc) : EOp → Prop
  | .stream => e.stream = .noStream
  | .encode _ _ fs => (∀ f ∈ fs, FieldOk e.huff f) ∧ listSize fs ≤ maxLiteral ∧ e.table.base + fs.length < 2 ^ 62
  | _ => True

/-- The encoders that there can be. -/
inductive EReach : Enc → Prop where
  | init (maxTableSize maxTracked : Nat) (huff : Bool) (h : maxTableSize < 2 ^ 64) : EReach (Enc.new maxTableSize maxTracked huff)
  | step {e e' : Enc} {o : EOp} : EReach e → o.Ok e → o.apply e = .ok e' → EReach e'

structure Dec.WF (d : Dec) : Prop where
  table : d.table.WF
  reader : d.reader.Ok
  acked : d.ackedInserts ≤ d.table.base

theorem dop_ok {d : Dec} (hd : d.WF) (o : DOp) :
    match o.apply d with | .ok d' => d'.WF | .error e => e ≠ .panic := by
  cases o with
  | receive bs =>
    have := process_ind enc_framing (exec := execTable d.maxTableSize) (J := fun t => t.WF ∧ d.table.base ≤ t.base) (A := EncR.Ok)
      (bad := (· = .panic))
      (fun t i ht => by
        have := execTable_ok (m := d.maxTableSize) ht.1 i
        cases hx : execTable d.maxTableSize t i with
        | error e => rw [hx] at this; exact this
        | ok t' => rw [hx] at this; exact ⟨this.1, le_trans ht.2 this.2⟩)
      (fun s bs hs => by have := enc_ok hs bs; cases hr : EncR.read s bs <;> rw [hr] at this <;> exact this) trivial (bs := bs) (s := d.reader) ⟨hd.table, le_rfl⟩ hd.reader
    have ha := hd.acked
    simp only [DOp.apply, Dec.receive]
    cases hp : process EncR.read (execTable d.maxTableSize) d.table d.reader bs with
    | error e => rw [hp] at this; cases e <;> simp [Except.map] at this ⊢
    | ok x =>
      obtain ⟨t, r⟩ := x
      rw [hp] at this
      obtain ⟨⟨h1, h2⟩, h3⟩ := this
      simp only
      by_cases hb : t.base = d.table.base
      · rw [if_pos hb]; exact ⟨h1, h3, le_trans ha h2⟩
      · rw [if_neg hb]; exact ⟨h1, h3, le_trans ha h2⟩
  | decode bs s =>
    have := decodeBlock_ok d.table d.maxEntries bs
    have ha := hd.acked
    simp only [DOp.apply, Dec.decode]
    cases hp : decodeBlock d.table d.maxEntries bs with
    | error e => rw [hp] at this; cases e <;> simp [Except.map] at this ⊢
    | ok x =>
      rw [hp] at this
      cases x with
      | blocked req =>
        simp only
        by_cases h1 : (d.blocked.any fun x => decide (x.1 = s)) = true
        · rw [if_pos h1]; exact hd
        · rw [if_neg h1]
          by_cases h2 : d.blocked.length ≥ d.maxBlocked
          · rw [if_pos h2]; simp [Except.map]
          · rw [if_neg h2]; exact ⟨hd.table, hd.reader, ha⟩
      | headers req fs =>
        simp only [Except.map]
        by_cases h1 : req ≠ 0
        · rw [if_pos h1]; exact ⟨hd.table, hd.reader, max_le ha this⟩
        · rw [if_neg h1]; exact hd
  | cancel s =>
    simp only [DOp.apply, Dec.cancelStream]
    by_cases h : d.table.capacity > 0
    · rw [if_pos h]; exact ⟨hd.table, hd.reader, hd.acked⟩
    · rw [if_neg h]; exact hd
  | send =>
    have ha := hd.acked
    simp only [DOp.apply, Dec.send]
    rw [if_neg (by omega)]
    by_cases h : d.table.base - d.ackedInserts > 0
    · rw [if_pos h]; exact ⟨hd.table, hd.reader, le_rfl⟩
    · rw [if_neg h]; exact hd

theorem dec_new_wf (m b : Nat) : (Dec.new m b).WF where
  table := ⟨by simp [Dec.new, Table.new], by simp [Dec.new, Table.new], rfl, by simp [Dec.new, Table.new], by simp [Dec.new, Table.new]⟩
  reader := trivial
  acked := Nat.zero_le _

/-- Whatever a peer sends to a decoder, it does not panic. -/
theorem C65_decoder (maxTableSize maxBlocked : Nat) (os : List DOp) : runD (Dec.new maxTableSize maxBlocked) os ≠ .error .panic := by
  have : ∀ (os : List DOp) (d : Dec), d.WF → runD d os ≠ .error .panic := by
    intro os
    induction os with
    | nil => intro d _; simp [runD]
    | cons o os ih =>
      intro d hd
      have h := dop_ok hd o
      simp only [runD]
      cases ho : o.apply d with
      | error e => rw [ho] at h; simpa using h
      | ok d' => rw [ho] at h; exact ih d' h
  exact this os _ (dec_new_wf ..)

/-- A history with instructions in pieces, a section that waits, and one that does not. -/
example : (runD (Dec.new 200 1) [.receive [0x3f], .decode [2, 0, 0x80] 0, .receive [100], .receive [0x41, 97, 1, 98],
      .decode [2, 0, 0x80] 0, .send, .cancel 4]).isOk = true ∧
    runD (Dec.new 200 1) [.receive [0x3f, 0xff, 0xff, 0xff, 0xff, 0xff, 0xff, 0xff, 0xff, 0xff, 0xff, 0xff]] = .error .encoderStream ∧
    runD (Dec.new 200 1) [.decode [2] 0] = .error .decompression := by decide +kernel

structure Enc.Sound (e : Enc) : Prop where
  wf : e.WF
  reader : e.reader.Ok
  base : e.table.base < 2 ^ 62
  next : ∀ c ∈ e.nextCapacity, c < 2 ^ 64
  max : e.maxTableSize < 2 ^ 64

theorem enc_receive_ok {e : Enc} (he : e.Sound) (bs : Bytes) :
    match e.receive bs with | .ok e' => e'.Sound | .error x => x ≠ .panic := by
  have h64 := he.base
  have := process_ind dec_framing (exec := Enc.exec)
    (J := fun u => u.WF ∧ u.table.base = e.table.base ∧ u.nextCapacity = e.nextCapacity ∧ u.maxTableSize = e.maxTableSize) (A := DecR.Ok)
    (bad := (· = .panic))
    (fun u i hu => by
      rcases exec_any hu.1 (by omega) i with ⟨e', g1, g2, g3, g4, g5, g6⟩ | g
      · rw [g1]
        have hb : e'.table.base = u.table.base := by have := congrArg Table.base g3; exact this
        refine ⟨g2, hb.trans hu.2.1, ?_, ?_⟩
        · rw [g6]; exact hu.2.2.1
        · rw [g6]; exact hu.2.2.2
      · rw [g]; simp)
    (fun s bs hs => by have := dec_ok hs bs; cases hr : DecR.read s bs <;> rw [hr] at this <;> exact this) trivial (bs := bs) (s := e.reader) ⟨he.wf, rfl, rfl, rfl⟩ he.reader
  unfold Enc.receive
  cases hp : process DecR.read Enc.exec e e.reader bs with
  | error x => rw [hp] at this; cases x <;> simp at this ⊢
  | ok y =>
    obtain ⟨e', r⟩ := y
    rw [hp] at this
    obtain ⟨⟨h1, h2, h3, h4⟩, h5⟩ := this
    refine ⟨⟨h1.table, h1.acked, h1.unacked, h1.refs, h1.held, h1.blocked, h1.entries, h1.old⟩, h5, ?_, ?_, ?_⟩
    · show e'.table.base < _; omega
    · show ∀ c ∈ e'.nextCapacity, _; rw [h3]; exact he.next
    · show e'.maxTableSize < _; rw [h4]; exact he.max

theorem Sent.sound {m : Nat} {e e' : Enc} {is : List EncInstr} {out : Bytes} (he : e.Sound) (h : Sent m e e' is out)
    (hb : e'.table.base < 2 ^ 62) : e'.Sound where
  wf := h.wf
  reader := by rw [h.reader]; exact he.reader
  base := hb
  next := by
    rcases h.next with ⟨h1, -⟩ | ⟨h1, -⟩
    · rw [h1]; exact he.next
    · rw [h1]; simp
  max := by rw [h.maxTableSize]; exact he.max

theorem eop_ok {e : Enc} (he : e.Sound) {o : EOp} (ho : o.Ok e) :
    match o.apply e with | .ok e' => e'.Sound | .error x => x ≠ .panic := by
  have hm : ∀ c ∈ e.nextCapacity, c ≤ 2 ^ 64 ∧ c < 2 ^ 64 := fun c hc => ⟨le_of_lt (he.next c hc), he.next c hc⟩
  have hw := he.wf
  cases o with
  | settings c b =>
    have hset : ∀ x : Enc, x.Sound → match x.setMaxBlocked b with | .ok e' => e'.Sound | .error x => x ≠ .panic := by
      intro x hx
      unfold Enc.setMaxBlocked
      have hw := hx.wf
      by_cases h : b < 2 ^ 16
      · rw [if_pos h]
        exact ⟨⟨hw.table, hw.acked, hw.unacked, hw.refs, hw.held, hw.blocked, hw.entries, hw.old⟩, hx.reader, hx.base, hx.next, hx.max⟩
      · rw [if_neg h]; simp
    simp only [EOp.apply, Enc.setMaxCapacity]
    by_cases h1 : c > 2 ^ 30 - 1
    · rw [if_pos h1]; simp
    · rw [if_neg h1]
      by_cases h2 : c = e.table.capacity
      · rw [if_pos h2]; exact hset e he
      · rw [if_neg h2]
        refine hset _ ⟨⟨hw.table, hw.acked, hw.unacked, hw.refs, hw.held, hw.blocked, hw.entries, hw.old⟩, he.reader, he.base, ?_, he.max⟩
        intro x hx
        simp only [Option.mem_def, Option.some.injEq] at hx
        have := he.max
        omega
  | stream =>
    simp only [EOp.apply, Enc.addSendStream]
    rw [if_pos (show e.stream = .noStream from ho)]
    exact ⟨⟨hw.table, hw.acked, hw.unacked, hw.refs, hw.held, hw.blocked, hw.entries, hw.old⟩, he.reader, he.base, he.next, he.max⟩
  | updates room =>
    obtain ⟨b, w', is, h1, h2, h3, h4, h5⟩ := sendUpdates_ok (m := 2 ^ 64) he.wf hm room
    simp only [EOp.apply, h1]
    exact h2.sound he (by rw [h4]; exact he.base)
  | encode room s fs =>
    obtain ⟨b, w', need, is, h1, h2, -, -, -, -, h3, -⟩ := encode_ok (m := 2 ^ 64) he.wf hm room s ho.1 ho.2.1 ho.2.2
    simp only [EOp.apply, h1]
    exact h2.sound he (lt_of_le_of_lt h3 ho.2.2)
  | receive bs => exact enc_receive_ok he bs

theorem EReach.sound {e : Enc} (h : EReach e) : e.Sound := by
  induction h with
  | init m k h hm => exact ⟨enc_new_wf .., trivial, by simp [Enc.new, Table.new], by simp [Enc.new], hm⟩
  | step h ho hs ih =>
    have := eop_ok ih ho
    rw [hs] at this
    exact this

/-- Whatever a peer sends to an encoder, and whatever its settings are, the encoder does not panic: not when it
receives, and not when it sends later. -/
theorem C65_encoder {e : Enc} (h : EReach e) {o : EOp} (ho : o.Ok e) : o.apply e ≠ .error .panic := by
  have := eop_ok h.sound ho
  intro hc
  rw [hc] at this
  exact this rfl

/-- All that an encoder makes of bytes that are no instructions of a decoder is one error. -/
theorem C65_encoder_error {e : Enc} {bs : Bytes} {x : Err} (h : EReach e) (hr : e.receive bs = .error x) : x = .decoderStream := by
  have h1 := C65_encoder h (o := .receive bs) trivial
  simp only [EOp.apply, hr] at h1
  unfold Enc.receive at hr
  split at hr <;> cases hr
  · exact absurd rfl h1
  · rfl

instance (e : Enc) (o : EOp) : Decidable (o.Ok e) := by
  cases o <;> unfold EOp.Ok <;> infer_instance

/-- A history that keeps to `EOp.Ok`. -/
def runOk (e : Enc) : List EOp → Option Enc
  | [] => some e
  | o :: os => if o.Ok e then (o.apply e).toOption.bind fun e => runOk e os else none

theorem EReach.runOk {os : List EOp} : ∀ {e e' : Enc}, EReach e → runOk e os = some e' → EReach e' := by
  induction os with
  | nil => intro e e' h hr; cases hr; exact h
  | cons o os ih =>
    intro e e' h hr
    simp only [Qp.runOk] at hr
    split at hr
    · rename_i ho
      cases ha : o.apply e with
      | error x => rw [ha] at hr; cases hr
      | ok e1 => rw [ha] at hr; exact ih (h.step ho ha) hr
    · cases hr

/-- An encoder in use, with a peer that acknowledges what was not sent. -/
example : ∃ e, EReach e ∧ e.table.base = 1 ∧ e.receive [0x84] = .error .decoderStream ∧ (e.receive [0x80]).isOk = true := by
  have h : ∃ e, runOk (Enc.new 1000 10 false) [.settings 200 3, .stream, .encode 1000 0 [([97], [98])]] = some e ∧
      e.table.base = 1 ∧ e.receive [0x84] = .error .decoderStream ∧ (e.receive [0x80]).isOk = true := by
    have : ((runOk (Enc.new 1000 10 false) [.settings 200 3, .stream, .encode 1000 0 [([97], [98])]]).map fun e =>
        decide (e.table.base = 1 ∧ e.receive [0x84] = .error .decoderStream ∧ (e.receive [0x80]).isOk = true)) = some true := by
      decide +kernel
    obtain ⟨e, h1, h2⟩ := Option.map_eq_some_iff.mp this
    exact ⟨e, h1, of_decide_eq_true h2⟩
  obtain ⟨e, h1, h2⟩ := h
  exact ⟨e, (EReach.init 1000 10 false (by decide)).runOk h1, h2⟩

end Neqo.Qp
