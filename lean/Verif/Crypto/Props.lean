import Verif.Crypto.Inv
import Mathlib.Tactic.Ring

/-!
# C85: handshake messages are delivered in order, in full, or the connection is closed
-/
namespace Neqo.Crypto
open Neqo.Codec (Bytes)
open Neqo.Send (AckedAt SentAt txMax)
open Neqo.Recv (Rx Rcv Inv Ok)

/-! ## Specification -/

/-- What TLS handed over, in order. -/
def messages : List COp → Bytes
  | [] => []
  | .send d :: ops => d ++ messages ops
  | _ :: ops => messages ops

/-- Byte `b` arrived at offset `i`. -/
def Carried (ops : List COp) (i : Nat) (b : UInt8) : Prop :=
  ∃ off d, COp.receive off d ∈ ops ∧ off ≤ i ∧ d[i - off]? = some b

def Arrived (ops : List COp) (i : Nat) : Prop := ∃ b, Carried ops i b

/-- The number of bytes in the frames that arrived, counting repeated ones. -/
def arrivedBytes : List COp → Nat
  | [] => 0
  | .receive _ d :: ops => d.length + arrivedBytes ops
  | _ :: ops => arrivedBytes ops

/-- Packets are not empty, and no stream is longer than offsets can tell. -/
structure Valid (ops : List COp) : Prop where
  limit : ∀ sni limit rem split, COp.write sni limit rem split ∈ ops → 0 < limit
  size : (messages ops).length < 2 ^ 62

/-! ## Histories -/

theorem messages_append (a b : List COp) : messages (a ++ b) = messages a ++ messages b := by
  induction a with
  | nil => rfl
  | cons op a ih => cases op <;> simp [messages, ih]

theorem arrivedBytes_append (a b : List COp) : arrivedBytes (a ++ b) = arrivedBytes a + arrivedBytes b := by
  induction a with
  | nil => simp [arrivedBytes]
  | cons op a ih => cases op <;> simp [arrivedBytes, ih, Nat.add_assoc]

theorem carried_append {a b : List COp} {i : Nat} {x : UInt8} :
    Carried (a ++ b) i x ↔ Carried a i x ∨ Carried b i x := by
  unfold Carried
  simp only [List.mem_append]
  constructor
  · rintro ⟨o, d, h | h, r⟩
    · exact .inl ⟨o, d, h, r⟩
    · exact .inr ⟨o, d, h, r⟩
  · rintro (⟨o, d, h, r⟩ | ⟨o, d, h, r⟩)
    · exact ⟨o, d, .inl h, r⟩
    · exact ⟨o, d, .inr h, r⟩

theorem run_append (c : CStream) (a b : List COp) : c.run (a ++ b) = match c.run a with
    | .ok c => c.run b
    | .error e => .error e := by
  induction a generalizing c with
  | nil => rfl
  | cons op a ih =>
    simp only [List.cons_append, CStream.run]
    split
    · exact ih _
    · rfl

/-- What is known after a history. -/
structure Hist (ops : List COp) (c : CStream) : Prop where
  s : SInv c
  given : c.given = messages ops
  r : RInv (Carried ops) (arrivedBytes ops) c.rx c.delivered

theorem hist_init : Hist [] {} := by
  refine ⟨sinv_init, rfl, ?_⟩
  have : Carried [] = fun _ _ => False := by funext i b; simp [Carried]
  rw [this]
  exact rinv_init

theorem Hist.other {ops : List COp} {c c' : CStream} (h : Hist ops c) (op : COp) (hs : SInv c')
    (hg : c'.given = c.given ++ messages [op]) (hn : ∀ off d, op ≠ .receive off d) (h1 : c'.rx = c.rx)
    (h2 : c'.delivered = c.delivered) : Hist (ops ++ [op]) c' := by
  refine ⟨hs, by rw [hg, h.given, messages_append], ?_⟩
  have hc : Carried (ops ++ [op]) = Carried ops := by
    funext i b
    rw [carried_append]
    apply propext
    constructor
    · rintro (h | ⟨o, d, h, _⟩)
      · exact h
      · rw [List.mem_singleton] at h
        exact absurd h.symm (hn o d)
    · exact .inl
  have ha : arrivedBytes (ops ++ [op]) = arrivedBytes ops := by
    rw [arrivedBytes_append]
    cases op <;> first | rfl | exact absurd rfl (hn _ _)
  rw [hc, ha, h1, h2]
  exact h.r

theorem Hist.step {ops : List COp} {c : CStream} (h : Hist ops c) (op : COp)
    (hl : ∀ sni limit rem split, op = .write sni limit rem split → 0 < limit)
    (hsz : (messages ops).length < 2 ^ 62) :
    (c.step op = .error .bufferExceeded ∧ ∃ off d, op = .receive off d) ∨
    ∃ c', c.step op = .ok c' ∧ Hist (ops ++ [op]) c' := by
  cases op with
  | send d =>
    obtain ⟨c', h1, h2, h3, h4, h5, _⟩ := h.s.send d
    exact .inr ⟨c', h1, h.other _ h2 (by rw [h3]; simp [messages]) (by intros; simp) h4 h5⟩
  | write sni limit rem split =>
    have hw : c.written.length < 2 ^ 62 := by
      have := h.s.given; rw [h.given] at this; omega
    obtain ⟨c', fs, h1, h2, h3, h4, h5, _⟩ := h.s.write (sni := sni) (rem := rem) (split := split) hw (hl _ _ _ _ rfl)
    exact .inr ⟨c', h1, h.other _ h2 (by rw [h3]; simp [messages]) (by intros; simp) h4 h5⟩
  | acked k =>
    obtain ⟨c', h1, h2, h3, h4, h5, _⟩ := h.s.acked_ok k
    exact .inr ⟨c', h1, h.other _ h2 (by rw [h3]; simp [messages]) (by intros; simp) h4 h5⟩
  | lost k =>
    obtain ⟨c', h1, h2, h3, h4, h5, _⟩ := h.s.lost_ok k
    exact .inr ⟨c', h1, h.other _ h2 (by rw [h3]; simp [messages]) (by intros; simp) h4 h5⟩
  | resend =>
    obtain ⟨c', h1, h2, h3, h4, h5, _⟩ := h.s.resend_ok
    exact .inr ⟨c', h1, h.other _ h2 (by rw [h3]; simp [messages]) (by intros; simp) h4 h5⟩
  | receive off d =>
    unfold CStream.step
    dsimp only
    unfold CStream.receive
    rcases h.r.receive_ok off d with he | ⟨s', o, he, hr⟩
    · left
      rw [he]
      exact ⟨rfl, off, d, rfl⟩
    · right
      rw [he]
      refine ⟨_, rfl, ⟨⟨h.s.ok, h.s.frames, h.s.acked, h.s.sent, h.s.given, h.s.full, h.s.ackIn, h.s.liveIn⟩, ?_, ?_⟩⟩
      · rw [messages_append, ← h.given]; simp [messages]
      · have hc : Carried (ops ++ [.receive off d]) = Rcv.add (Carried ops) off d := by
          funext i b
          rw [carried_append]
          unfold Rcv.add
          apply propext
          refine or_congr Iff.rfl ?_
          unfold Carried
          constructor
          · rintro ⟨o', d', hm, r⟩
            rw [List.mem_singleton] at hm
            cases hm
            exact r
          · intro r
            exact ⟨off, d, by simp, r⟩
        rw [hc, arrivedBytes_append]
        exact hr

theorem run_hist {pre ops : List COp} {c : CStream} (h : Hist pre c) (hv : Valid (pre ++ ops)) :
    c.run ops = .error .bufferExceeded ∨ ∃ c', c.run ops = .ok c' ∧ Hist (pre ++ ops) c' := by
  induction ops generalizing pre c with
  | nil => exact .inr ⟨c, rfl, by rw [List.append_nil]; exact h⟩
  | cons op ops ih =>
    unfold CStream.run
    have hsz : (messages pre).length < 2 ^ 62 := by
      have := hv.size
      rw [messages_append, List.length_append] at this; omega
    rcases h.step op (fun sni l r s he => hv.limit sni l r s (by simp [he])) hsz with ⟨he, _⟩ | ⟨c1, he, h1⟩
    · left; rw [he]
    · rw [he]
      have := ih (pre := pre ++ [op]) h1 (by rw [List.append_assoc]; exact hv)
      rw [List.append_assoc] at this
      exact this

theorem run_init {ops : List COp} {c : CStream} (hv : Valid ops) (hr : CStream.run {} ops = .ok c) : Hist ops c := by
  rcases run_hist (pre := []) (ops := ops) hist_init hv with he | ⟨c', he, h⟩
  · rw [hr] at he; cases he
  · rw [hr] at he; cases he
    exact h

/-! ## The theorems -/

/-- No sequence of calls panics: the only failure is a frame beyond the limit of the buffer, and without frames from
the peer there is none. -/
theorem C85_no_panic {ops : List COp} (hv : Valid ops) :
    (∀ e, CStream.run {} ops = .error e → e = .bufferExceeded) ∧
    ((∀ off d, COp.receive off d ∉ ops) → ∃ c, CStream.run {} ops = .ok c) := by
  have h := run_hist (pre := []) (ops := ops) hist_init hv
  refine ⟨fun e he => ?_, fun hn => ?_⟩
  · rcases h with h | ⟨c, h, _⟩
    · rw [h] at he; cases he; rfl
    · rw [h] at he; cases he
  · suffices ∀ (ops pre : List COp) (c : CStream), Hist pre c → Valid (pre ++ ops) →
        (∀ off d, COp.receive off d ∉ ops) → ∃ c', c.run ops = .ok c' from this ops [] {} hist_init hv hn
    clear h hn hv ops
    intro ops
    induction ops with
    | nil => intro pre c _ _ _; exact ⟨c, rfl⟩
    | cons op ops ih =>
      intro pre c h hv hn
      have hsz : (messages pre).length < 2 ^ 62 := by
        have := hv.size
        rw [messages_append, List.length_append] at this; omega
      rcases h.step op (fun sni l r s he => hv.limit sni l r s (by simp [he])) hsz with ⟨_, o, d, he⟩ | ⟨c1, he, h1⟩
      · exact absurd (by simp [he]) (hn o d)
      · unfold CStream.run
        rw [he]
        exact ih (pre ++ [op]) c1 h1 (by rw [List.append_assoc]; exact hv) (fun o d hm => hn o d (by simp [hm]))

/-- Every frame that is sent is, on the wire, a CRYPTO frame that carries bytes of the stream at their place. -/
theorem C85_frames {ops : List COp} {c : CStream} (hv : Valid ops) (hr : CStream.run {} ops = .ok c) :
    ∀ f ∈ c.frames, f.off + f.data.length ≤ c.written.length ∧ f.data = (c.written.drop f.off).take f.data.length ∧
      Frm.Wire (.crypto f.off f.data) f.wire := fun f hf =>
  let h := (run_init hv hr).s.frames f hf
  ⟨h.bound, h.data, h.wire⟩

/-- What goes into one packet: it fits, its frames have no byte in common, and no byte is sent that was
acknowledged. -/
theorem C85_packet {ops : List COp} {c c' : CStream} {sni : Bool} {limit rem split : Nat} (hv : Valid ops)
    (hr : CStream.run {} ops = .ok c) (hl : 0 < limit) (hw : c.step (.write sni limit rem split) = .ok c') :
    ∃ fs, c'.frames = c.frames ++ fs ∧ (fs.map (·.wire.length)).sum ≤ rem ∧
      fs.Pairwise (fun f g => ∀ i, ¬ (f.Covers i ∧ g.Covers i)) ∧
      ∀ f ∈ fs, ∀ i, f.Covers i → ¬ c.Acknowledged i := by
  have h := run_init hv hr
  have hlen : c.written.length < 2 ^ 62 := by
    have := h.s.given; rw [h.given] at this; have := hv.size; omega
  obtain ⟨c1, fs, h1, _, _, _, _, h2, _, _, h3, _⟩ := h.s.write (sni := sni) (rem := rem) (split := split) hlen hl
  have : c.step (.write sni limit rem split) = .ok c1 := h1
  rw [hw] at this; cases this
  exact ⟨fs, h2, h3.fits, h3.apart, fun f hf i hi ha => (h3.fresh f hf i hi).1 ((h.s.acked i).mpr ha)⟩

/-- A packet with 21 bytes to spare takes more of the stream if some of it is neither acknowledged nor on its way. -/
theorem C85_progress {ops : List COp} {c c' : CStream} {sni : Bool} {limit rem split i : Nat} (hv : Valid ops)
    (hr : CStream.run {} ops = .ok c) (hl : 3 ≤ limit) (hrem : 21 ≤ rem)
    (hw : c.step (.write sni limit rem split) = .ok c')
    (hi : i < c.written.length) (ha : ¬ c.Acknowledged i) (hf : ¬ c.InFlight i) :
    ∃ fs, c'.frames = c.frames ++ fs ∧ ∃ f ∈ fs, f.data ≠ [] := by
  have h := run_init hv hr
  have hlen : c.written.length < 2 ^ 62 := by
    have := h.s.given; rw [h.given] at this; have := hv.size; omega
  obtain ⟨c1, fs, h1, _, _, _, _, h2, _, _, h3, _⟩ := h.s.write (sni := sni) (limit := limit) (rem := rem) (split := split) hlen
    (by omega)
  have : c.step (.write sni limit rem split) = .ok c1 := h1
  rw [hw] at this; cases this
  refine ⟨fs, h2, h3.progress hl hrem fun hn => ?_⟩
  rcases h.s.ok.first_spec.1 hn i hi with h4 | h4
  · exact ha ((h.s.acked i).mp h4)
  · exact hf (h.s.sent i h4)

/-- If the messages are not cut at the name of the server, a packet takes all there is to send, unless less than
11 bytes are left in it. -/
theorem C85_fills {ops : List COp} {c c' : CStream} {limit rem split : Nat} (hv : Valid ops)
    (hr : CStream.run {} ops = .ok c) (hl : 0 < limit) (hw : c.step (.write false limit rem split) = .ok c') :
    ∃ fs, c'.frames = c.frames ++ fs ∧
      (11 ≤ rem - (fs.map (·.wire.length)).sum → ∀ i, i < c.written.length → c'.Acknowledged i ∨ c'.InFlight i) := by
  have h := run_init hv hr
  have hlen : c.written.length < 2 ^ 62 := by
    have := h.s.given; rw [h.given] at this; have := hv.size; omega
  obtain ⟨c1, fs, h1, hs, _, _, _, h2, h4, _, h3, _⟩ := h.s.write (sni := false) (rem := rem) (split := split) hlen hl
  have : c.step (.write false limit rem split) = .ok c1 := h1
  rw [hw] at this; cases this
  refine ⟨fs, h2, fun h11 i hi => ?_⟩
  rcases h3.all rfl h11 i hi with h5 | h5
  · exact .inl ((hs.acked i).mp h5)
  · exact .inr (hs.sent i h5)

/-- Nothing is forgotten: when there is nothing to send, every byte was acknowledged or is in a frame that is neither
acknowledged nor given up. -/
theorem C85_nothing_forgotten {ops : List COp} {c : CStream} (hv : Valid ops) (hr : CStream.run {} ops = .ok c)
    (he : isEmpty c.tx = true) : ∀ i, i < c.written.length → c.Acknowledged i ∨ c.InFlight i := by
  have h := run_init hv hr
  intro i hi
  unfold isEmpty at he
  rcases h.s.ok.first_spec.1 (Option.isNone_iff_eq_none.mp he) i hi with h4 | h4
  · exact .inl ((h.s.acked i).mp h4)
  · exact .inr (h.s.sent i h4)

/-- All that TLS hands over is sent, up to 10 MiB. -/
theorem C85_written_in_full {ops : List COp} {c : CStream} (hv : Valid ops) (hr : CStream.run {} ops = .ok c)
    (hsz : (messages ops).length ≤ 10485760) : c.written = messages ops := by
  have h := run_init hv hr
  rw [← h.given]
  exact h.s.full (by rw [h.given]; exact hsz)

/-- Finding: beyond that the rest is dropped, and no error is reported. -/
theorem C85_excess_dropped (d : Bytes) (hd : 10485760 < d.length) :
    ∃ c, CStream.run {} [.send d] = .ok c ∧ c.written = d.take 10485760 ∧ c.written ≠ messages [.send d] := by
  obtain ⟨t, h1, _, _⟩ := Send.txok_new.send d
  have hm : min (txMax - ({} : Send.Tx).buf.length) d.length = 10485760 := by
    show min (10485760 - 0) d.length = 10485760
    omega
  rw [hm] at h1
  refine ⟨{ tx := t, given := [] ++ d, written := [] ++ d.take 10485760 },
    by simp only [CStream.run, CStream.step, CStream.send, h1, lift], by simp, ?_⟩
  intro h
  have := congrArg List.length h
  simp only [messages, List.nil_append, List.append_nil, List.length_take] at this
  omega

/-- Nothing was declared lost, and no probe timeout occurred. -/
def Quiet (ops : List COp) : Prop := ∀ op ∈ ops, op ≠ .resend ∧ ∀ k, op ≠ .lost k

/-- Without loss no byte is sent twice. -/
theorem C85_once_without_loss {ops : List COp} {c : CStream} (hv : Valid ops) (hq : Quiet ops)
    (hr : CStream.run {} ops = .ok c) : c.frames.Pairwise (fun f g => ∀ i, ¬ (f.Covers i ∧ g.Covers i)) := by
  suffices ∀ (ops pre : List COp) (c : CStream), Hist pre c → Valid (pre ++ ops) → Quiet ops →
      c.frames.Pairwise (fun f g => ∀ i, ¬ (f.Covers i ∧ g.Covers i)) →
      (∀ f ∈ c.frames, ∀ i, f.Covers i → AckedAt c.tx.ranges i ∨ SentAt c.tx.ranges i) →
      ∀ c', c.run ops = .ok c' → c'.frames.Pairwise (fun f g => ∀ i, ¬ (f.Covers i ∧ g.Covers i)) from
    this ops [] {} hist_init hv hq .nil (by simp) c hr
  clear hr hq hv
  intro ops
  induction ops with
  | nil => intro pre c _ _ _ hp _ c' hr; cases hr; exact hp
  | cons op ops ih =>
    intro pre c h hv hq hp hm c' hr
    unfold CStream.run at hr
    have hsz : (messages pre).length < 2 ^ 62 := by
      have := hv.size
      rw [messages_append, List.length_append] at this; omega
    have hl := fun sni l r s (he : op = .write sni l r s) => hv.limit sni l r s (by simp [he])
    have hq' : Quiet ops := fun o ho => hq o (by simp [ho])
    have hv' : Valid (pre ++ [op] ++ ops) := by rw [List.append_assoc]; exact hv
    rcases h.step op hl hsz with ⟨he, _⟩ | ⟨c1, he, h1⟩
    · rw [he] at hr; cases hr
    rw [he] at hr
    have go := ih (pre ++ [op]) c1 h1 hv' hq'
    cases op with
    | send d =>
      obtain ⟨c2, g1, _, _, _, _, g2, g3, _⟩ := h.s.send d
      have : c.step (.send d) = .ok c2 := g1
      rw [he] at this; cases this
      exact go (by rw [g3]; exact hp) (by rw [g2, g3]; exact hm) c' hr
    | write sni limit rem split =>
      have hlen : c.written.length < 2 ^ 62 := by
        have := h.s.given; rw [h.given] at this; omega
      obtain ⟨c2, fs, g1, _, _, _, _, g2, _, _, g3, _⟩ :=
        h.s.write (sni := sni) (rem := rem) (split := split) hlen (hl _ _ _ _ rfl)
      have : c.step (.write sni limit rem split) = .ok c2 := g1
      rw [he] at this; cases this
      refine go ?_ ?_ c' hr
      · rw [g2]
        refine List.pairwise_append.mpr ⟨hp, g3.apart, fun f hf g hg i hi => ?_⟩
        have h5 := g3.fresh g hg i hi.2
        rcases hm f hf i hi.1 with h6 | h6
        · exact h5.1 h6
        · exact h5.2 h6
      · rw [g2]
        intro f hf i hi
        rw [g3.acked, g3.sent]
        rcases List.mem_append.mp hf with hf | hf
        · exact (hm f hf i hi).imp id .inl
        · exact .inr (.inr ⟨f, hf, hi⟩)
    | acked k =>
      obtain ⟨c2, g1, _, _, _, _, g2, _, g3⟩ := h.s.acked_ok k
      have : c.step (.acked k) = .ok c2 := g1
      rw [he] at this; cases this
      refine go (by rw [g2]; exact hp) (fun f hf i hi => ?_) c' hr
      rw [g2] at hf
      rw [g3]
      rcases hm f hf i hi with h5 | h5
      · exact .inl h5
      · exact .inr (.inl h5)
    | lost k => exact absurd rfl ((hq (.lost k) (by simp)).2 k)
    | resend => exact absurd rfl (hq .resend (by simp)).1
    | receive off d =>
      have he' : c.receive off d = .ok c1 := he
      unfold CStream.receive at he'
      split at he'
      · cases he'
      · cases he'
        exact go hp hm c' hr

/-! ### Receiving -/

/-- The bytes handed to TLS are those that arrived, in order, and all there are without a gap. -/
theorem C85_delivery {ops : List COp} {c : CStream} (hv : Valid ops) (hr : CStream.run {} ops = .ok c) :
    (∀ i b, c.delivered[i]? = some b → Carried ops i b) ∧ ¬ Arrived ops c.delivered.length := by
  have h := run_init hv hr
  refine ⟨fun i b hb => ?_, ?_⟩
  · have := h.r.right i b hb
    rwa [Nat.zero_add] at this
  · rw [h.r.len]; exact h.r.drained

/-- End to end: if the frames that arrive are ones that the peer sent, what is handed to TLS is the
beginning of what the peer's TLS wrote; and all of it once every byte of it arrived. -/
theorem C85_end_to_end {sent got : List COp} {a b : CStream} (hva : Valid sent) (hvb : Valid got)
    (ha : CStream.run {} sent = .ok a) (hb : CStream.run {} got = .ok b)
    (hf : ∀ off d, COp.receive off d ∈ got → ∃ f ∈ a.frames, f.off = off ∧ f.data = d) :
    b.delivered <+: a.written ∧ ((∀ i, i < a.written.length → Arrived got i) → b.delivered = a.written) := by
  obtain ⟨d1, d2⟩ := C85_delivery hvb hb
  have hof := C85_frames hva ha
  have hc : ∀ i x, Carried got i x → a.written[i]? = some x := by
    rintro i x ⟨off, d, hm, h1, h2⟩
    obtain ⟨f, hfm, rfl, rfl⟩ := hf off d hm
    obtain ⟨_, h4, _⟩ := hof f hfm
    rw [h4, List.getElem?_take] at h2
    split at h2
    · rw [List.getElem?_drop] at h2
      rwa [show f.off + (i - f.off) = i by omega] at h2
    · cases h2
  have hp : b.delivered <+: a.written := by
    rw [List.prefix_iff_getElem?]
    intro i hi
    rw [hc i _ (d1 i _ (List.getElem?_eq_getElem hi))]
  refine ⟨hp, fun hall => ?_⟩
  have hle := hp.length_le
  rcases Nat.lt_or_eq_of_le hle with hlt | heq
  · exact absurd (hall _ hlt) d2
  · exact hp.eq_of_length heq

/-- What is stored for TLS and not yet handed over is at most 65536 bytes. -/
theorem C85_buffer_bound {ops : List COp} {c : CStream} (hv : Valid ops) (hr : CStream.run {} ops = .ok c) :
    (c.rx.ranges.map (fun e => e.2.length - (c.delivered.length - e.1))).sum ≤ 65536 := by
  have h := run_init hv hr
  have := h.r.bound
  rw [h.r.len]
  exact this

theorem ranges_count {N : Nat} : ∀ {m : SMap Bytes} {lo : Nat}, Recv.Disj m → (∀ e ∈ m, e.2 ≠ [] ∧ lo ≤ e.1 ∧ Recv.rend e ≤ N) →
    m ≠ [] → m.length + lo ≤ N := by
  intro m
  induction m with
  | nil => intro lo _ _ h; exact absurd rfl h
  | cons e m ih =>
    intro lo hd hm _
    have hd' := Recv.disj_cons.mp hd
    obtain ⟨h1, h2, h3⟩ := hm e (by simp)
    have h4 : 0 < e.2.length := List.length_pos_iff.mpr h1
    simp only [Recv.rend] at h3 hd'
    by_cases hn : m = []
    · subst hn; simp; omega
    · have := ih (lo := e.1 + e.2.length) hd'.2 (fun x hx => by
        have := hm x (by simp [hx])
        exact ⟨this.1, hd'.1 x hx, this.2.2⟩) hn
      rw [List.length_cons]; omega

/-- RFC 9000, section 7.5: 4096 bytes can be buffered out of order.  A frame that ends at most 4096 bytes after what
was handed to TLS is accepted, if the others do so too and all frames that arrived since the
beginning, this one included, have together at most 65536 bytes more than was handed to TLS.  What is missing
for the full claim: the last condition, without which it is false (`C85_overlap_closes`). -/
theorem C85_minimum_buffer_partial {ops : List COp} {c : CStream} {off : Nat} {d : Bytes} (hv : Valid ops)
    (hr : CStream.run {} ops = .ok c) (hw : ∀ i, Arrived ops i → i < c.delivered.length + 4096)
    (hd : off + d.length ≤ c.delivered.length + 4096)
    (hs : arrivedBytes ops + d.length ≤ c.delivered.length + 65536) : ∃ c', c.step (.receive off d) = .ok c' := by
  have h := run_init hv hr
  have hlen := h.r.len
  have hranges : c.rx.ranges.length < 4096 := by
    by_cases hn : c.rx.ranges = []
    · rw [hn]; exact Nat.zero_lt_succ _
    · have hcov : ¬ Recv.Cov c.rx.ranges c.rx.retired := by
        rw [← h.r.inv.cover _ (Nat.le_refl _)]; exact h.r.drained
      have := ranges_count (N := c.rx.retired + 4096) (lo := c.rx.retired + 1) h.r.inv.disj (fun e he => by
        obtain ⟨l1, l2⟩ := h.r.inv.live e he
        refine ⟨l1, ?_, ?_⟩
        · have hnc : ¬ (e.1 ≤ c.rx.retired ∧ c.rx.retired < e.1 + e.2.length) := fun hc => hcov ⟨e, he, hc⟩
          simp only [Recv.rend] at l2
          omega
        · have h4 : 0 < e.2.length := List.length_pos_iff.mpr l1
          simp only [Recv.rend] at l2 ⊢
          have := hw (e.1 + e.2.length - 1) ((h.r.inv.cover _ (by omega)).mpr
            ⟨e, he, by omega, by simp only [Recv.rend]; omega⟩)
          omega) hn
      omega
  obtain ⟨s1, hs1⟩ := Recv.C07_accepts_below_limit hranges off d
  obtain ⟨g1, g2, g3, g4, g5⟩ := h.r.frame hs1
  have hin : inbound c.rx off d = .ok s1 := by
    unfold inbound
    rw [if_neg, hs1]
    · simp only
      rw [if_neg (by omega), if_pos]
      show s1.received - s1.retired ≤ 65536
      omega
    · rintro ⟨_, h2⟩
      have : c.rx.retired + 65536 < off := h2
      omega
  rcases h.step (.receive off d) (by intros; simp_all) hv.size with ⟨he, _⟩ | ⟨c', he, _⟩
  · exfalso
    have he' : c.receive off d = .error .bufferExceeded := he
    unfold CStream.receive at he'
    unfold receive at he'
    rw [hin] at he'
    simp only at he'
    by_cases hdr : s1.dataReady = true
    · rw [if_pos hdr] at he'
      obtain ⟨s2, o, r1, _⟩ := Recv.read_inv g1 s1.bytesReady
      have hre : s1.readToEnd = .ok (s2, o) := r1
      rw [hre] at he'
      cases he'
    · rw [if_neg hdr] at he'
      cases he'
  · exact ⟨c', he⟩

/-- The `k`th frame of an attack: one byte longer on each side than the one before. -/
def wider (k : Nat) : COp := .receive (300 - k) (List.replicate (1 + 2 * k) 0)

theorem wider_frame {a rec : Nat} {d d' : Bytes} {a' : Nat} (h1 : a' < a) (h2 : a + d.length < a' + d'.length) :
    Rx.inboundFrame ⟨[(a, d)], 0, rec, a + d.length⟩ a' d' = .ok ⟨[(a', d')], 0, rec + d'.length, a' + d'.length⟩ := by
  have hne : d' ≠ [] := by rintro rfl; simp at h2; omega
  unfold Rx.inboundFrame
  simp only [Nat.not_lt_zero, if_false]
  rw [if_neg (by omega), if_neg hne, if_neg (by omega)]
  have hup : SMap.upto [(a, d)] a' = [] := by
    unfold SMap.upto
    rw [List.filter_cons, if_neg (by simp; omega)]; rfl
  have hat : SMap.atOrAfter [(a, d)] a' = [(a, d)] := by
    unfold SMap.atOrAfter
    rw [List.filter_cons, if_pos (by simp; omega)]; rfl
  have hbe : SMap.below [(a, d)] a' = [] := by
    unfold SMap.below
    rw [List.filter_cons, if_neg (by simp; omega)]; rfl
  rw [hup]
  simp only [List.getLast?_nil]
  unfold Rx.addRange
  simp only [hat, hbe]
  have hsc : Recv.scanNext (a' + d'.length) d'.length [(a, d)] = ([], d'.length) := by
    unfold Recv.scanNext
    simp only
    rw [if_neg (by omega), if_neg (by omega)]
    rfl
  rw [hsc]
  simp only [List.take_length, List.nil_append]
  rw [if_neg hne]
  have hin : SMap.insert ([] : SMap Bytes) a' d' = [(a', d')] := rfl
  unfold Rx.insertRange Rx.checkGapLimit
  simp only [hin, List.length_singleton]
  rw [if_neg (by simp [Recv.maxGaps]), Nat.max_eq_right (by omega)]

theorem wider_run (n : Nat) (hn : n ≤ 255) : CStream.run {} ((List.range (n + 1)).map wider) =
    .ok { rx := ⟨[(300 - n, List.replicate (1 + 2 * n) 0)], 0, (n + 1) * (n + 1), (300 - n) + (1 + 2 * n)⟩ } := by
  induction n with
  | zero => decide +kernel
  | succ n ih =>
    rw [List.range_succ, List.map_append, run_append, ih (by omega)]
    simp only [List.map_cons, List.map_nil, CStream.run, wider, CStream.step]
    have hl1 : (List.replicate (1 + 2 * n) (0 : UInt8)).length = 1 + 2 * n := List.length_replicate
    have hl2 : (List.replicate (1 + 2 * (n + 1)) (0 : UInt8)).length = 1 + 2 * (n + 1) := List.length_replicate
    have hf := wider_frame (a := 300 - n) (rec := (n + 1) * (n + 1)) (d := List.replicate (1 + 2 * n) 0)
      (d' := List.replicate (1 + 2 * (n + 1)) 0) (a' := 300 - (n + 1)) (by omega) (by rw [hl1, hl2]; omega)
    rw [hl1, hl2] at hf
    have hsq : (n + 1) * (n + 1) + (1 + 2 * (n + 1)) = (n + 1 + 1) * (n + 1 + 1) := by ring
    have hle : (n + 1 + 1) * (n + 1 + 1) ≤ 65536 := Nat.mul_le_mul (show n + 1 + 1 ≤ 256 by omega) (show n + 1 + 1 ≤ 256 by omega)
    rw [hsq] at hf
    have hin : inbound ⟨[(300 - n, List.replicate (1 + 2 * n) 0)], 0, (n + 1) * (n + 1), 300 - n + (1 + 2 * n)⟩
        (300 - (n + 1)) (List.replicate (1 + 2 * (n + 1)) 0) =
        .ok ⟨[(300 - (n + 1), List.replicate (1 + 2 * (n + 1)) 0)], 0, (n + 1 + 1) * (n + 1 + 1),
          300 - (n + 1) + (1 + 2 * (n + 1))⟩ := by
      unfold inbound
      rw [if_neg (by simp only [bufferLimit]; omega), hf]
      simp only [Nat.not_lt_zero, if_false]
      rw [if_pos (by simp only [bufferLimit]; omega)]
    unfold CStream.receive receive
    rw [hin]
    simp only
    rw [if_neg (by simp only [Rx.dataReady]; simp; omega)]
    rfl

/-- Finding: the limit counts data that arrives again, in frames with other boundaries, again.  After 257 frames with no
byte beyond offset 600 the connection is closed, though 557 bytes would be all there is to store, and 4096 have to be
possible (RFC 9000, section 7.5). -/
theorem C85_overlap_closes :
    (∀ off d, COp.receive off d ∈ (List.range 257).map wider → off + d.length ≤ 557) ∧
    CStream.run {} ((List.range 257).map wider) = .error .bufferExceeded := by
  refine ⟨fun off d h => ?_, ?_⟩
  · obtain ⟨k, hk, he⟩ := List.mem_map.mp h
    have := List.mem_range.mp hk
    unfold wider at he
    cases he
    rw [List.length_replicate]; omega
  · rw [show 257 = 256 + 1 from rfl, List.range_succ, List.map_append, run_append, wider_run 255 (by omega)]
    simp only [List.map_cons, List.map_nil, CStream.run, wider, CStream.step]
    have hl1 : (List.replicate (1 + 2 * 255) (0 : UInt8)).length = 1 + 2 * 255 := List.length_replicate
    have hl2 : (List.replicate (1 + 2 * 256) (0 : UInt8)).length = 1 + 2 * 256 := List.length_replicate
    have hf := wider_frame (a := 300 - 255) (rec := (255 + 1) * (255 + 1)) (d := List.replicate (1 + 2 * 255) 0)
      (d' := List.replicate (1 + 2 * 256) 0) (a' := 300 - 256) (by omega) (by rw [hl1, hl2]; omega)
    rw [hl1, hl2] at hf
    unfold CStream.receive receive inbound
    rw [if_neg (by simp only [bufferLimit]; omega), hf]
    simp [bufferLimit]

/-! ### The spaces -/

/-- The operations on the stream of a space: a probe timeout for application data leaves the stream as it is. -/
def opsOn (sp : Space) : List Op → List COp
  | [] => []
  | .on sp' op :: ops => if sp' = sp ∧ ¬ (sp = .app ∧ op = .resend) then op :: opsOn sp ops else opsOn sp ops
  | .discard _ :: ops => opsOn sp ops

theorem get_set_same {s : Streams} {sp : Space} {c c' : CStream} (h : s.get sp = some c) :
    (s.set sp c').get sp = some c' := by
  cases s <;> cases sp <;> first | rfl | cases h

theorem get_set_other {s : Streams} {sp sp' : Space} {c : CStream} (h : sp' ≠ sp) :
    (s.set sp' c).get sp = s.get sp := by
  cases s <;> cases sp <;> cases sp' <;> first | rfl | exact absurd rfl h

theorem get_discard {s s' : Streams} {sp sp' : Space} (h : s.discard sp' = .ok s') :
    s'.get sp = s.get sp ∨ (s'.get sp = none ∧ sp' = sp) := by
  cases s <;> cases sp' <;> cases h <;> cases sp <;> simp [Streams.get]

/-- The spaces do not affect each other: what is known of one stream holds for the stream of each space. -/
theorem C85_spaces_independent {ops : List Op} {s : Streams} {sp : Space} {c : CStream}
    (hr : Streams.run .init ops = .ok s) (hc : s.get sp = some c) : CStream.run {} (opsOn sp ops) = .ok c := by
  suffices ∀ (ops : List Op) (s0 : Streams), Streams.run s0 ops = .ok s → ∃ c0, s0.get sp = some c0 ∧
      CStream.run c0 (opsOn sp ops) = .ok c by
    obtain ⟨c0, h1, h2⟩ := this ops .init hr
    have : c0 = {} := by cases sp <;> cases h1 <;> rfl
    rwa [this] at h2
  clear hr ops
  intro ops
  induction ops with
  | nil => intro s0 h; cases h; exact ⟨c, hc, rfl⟩
  | cons op ops ih =>
    intro s0 h
    unfold Streams.run at h
    cases hst : s0.step op with
    | error e => rw [hst] at h; cases h
    | ok s1 =>
      rw [hst] at h
      obtain ⟨c1, i1, i2⟩ := ih s1 h
      cases op with
      | discard sp' =>
        have hd : s0.discard sp' = .ok s1 := hst
        rcases get_discard (sp := sp) hd with hg | ⟨hg, _⟩
        · exact ⟨c1, by rw [← hg]; exact i1, i2⟩
        · rw [hg] at i1; cases i1
      | on sp' op =>
        unfold Streams.step at hst
        dsimp only at hst
        unfold opsOn
        by_cases ha : sp' = .app ∧ op = .resend
        · rw [if_pos ha] at hst
          cases hst
          refine ⟨c1, i1, ?_⟩
          rw [if_neg (by rintro ⟨rfl, h2⟩; exact h2 ha)]
          exact i2
        · rw [if_neg ha] at hst
          cases hg : s0.get sp' with
          | none =>
            rw [hg] at hst
            have hs : s1 = s0 := by
              cases op <;> simp only [missing] at hst <;> cases hst <;> rfl
            subst hs
            refine ⟨c1, i1, ?_⟩
            rw [if_neg (by rintro ⟨rfl, _⟩; rw [hg] at i1; cases i1)]
            exact i2
          | some c0 =>
            rw [hg] at hst
            simp only at hst
            cases hcs : c0.step op with
            | error e => rw [hcs] at hst; cases hst
            | ok c2 =>
              rw [hcs] at hst
              cases hst
              by_cases hsp : sp' = sp
              · subst hsp
                rw [get_set_same hg] at i1
                cases i1
                refine ⟨c0, hg, ?_⟩
                rw [if_pos ⟨rfl, ha⟩]
                unfold CStream.run
                rw [hcs]
                exact i2
              · rw [get_set_other hsp] at i1
                refine ⟨c1, i1, ?_⟩
                rw [if_neg (fun h => hsp h.1)]
                exact i2

theorem get_set_none {s : Streams} {sp sp' : Space} {c : CStream} : (s.set sp' c).get sp = none ↔ s.get sp = none := by
  cases s <;> cases sp <;> cases sp' <;> simp [Streams.get, Streams.set]

/-- A stream is there until its space is discarded; that of application data always is. -/
theorem C85_discard {ops : List Op} {s : Streams} (hr : Streams.run .init ops = .ok s) :
    ∀ sp, s.get sp = none ↔ Op.discard sp ∈ ops := by
  suffices ∀ (ops : List Op) (s0 : Streams), Streams.run s0 ops = .ok s →
      ∀ sp, s.get sp = none ↔ s0.get sp = none ∨ Op.discard sp ∈ ops by
    intro sp
    rw [this ops .init hr sp]
    cases sp <;> simp [Streams.init, Streams.get]
  clear hr ops
  intro ops
  induction ops with
  | nil => intro s0 h; cases h; intro sp; simp
  | cons op ops ih =>
    intro s0 h sp
    unfold Streams.run at h
    cases hst : s0.step op with
    | error e => rw [hst] at h; cases h
    | ok s1 =>
      rw [hst] at h
      rw [ih s1 h sp]
      cases op with
      | discard sp' =>
        have hd : s0.discard sp' = .ok s1 := hst
        have : s1.get sp = none ↔ s0.get sp = none ∨ sp' = sp := by
          cases s0 <;> cases sp' <;> cases hd <;> cases sp <;> simp [Streams.get]
        rw [this]
        simp only [List.mem_cons, Op.discard.injEq]
        constructor
        · rintro ((h | h) | h)
          · exact .inl h
          · exact .inr (.inl h.symm)
          · exact .inr (.inr h)
        · rintro (h | h | h)
          · exact .inl (.inl h)
          · exact .inl (.inr h.symm)
          · exact .inr h
      | on sp' op =>
        have : s1.get sp = none ↔ s0.get sp = none := by
          unfold Streams.step at hst
          dsimp only at hst
          split at hst
          · cases hst; rfl
          · split at hst
            · have hs : s1 = s0 := by
                cases op <;> simp only [missing] at hst <;> cases hst <;> rfl
              rw [hs]
            · split at hst
              · cases hst
              · cases hst; exact get_set_none
        rw [this]
        simp

/-- After that, handing over more to send or a frame from the peer is an error, and nothing else has an effect. -/
theorem C85_after_discard {ops : List Op} {s : Streams} {sp : Space} (hr : Streams.run .init ops = .ok s)
    (hd : Op.discard sp ∈ ops) :
    (∀ d, s.step (.on sp (.send d)) = .error .protocolViolation) ∧
    (∀ off d, s.step (.on sp (.receive off d)) = .error .internal) ∧
    (∀ sni limit rem split, s.step (.on sp (.write sni limit rem split)) = .ok s) ∧
    (∀ k, s.step (.on sp (.acked k)) = .ok s ∧ s.step (.on sp (.lost k)) = .ok s) ∧
    s.step (.on sp .resend) = .ok s := by
  have hn := (C85_discard hr sp).mpr hd
  unfold Streams.step
  simp [hn, missing]

/-- Spaces have to be discarded in order: doing otherwise panics. -/
theorem C85_discard_order {ops : List Op} {s : Streams} (hr : Streams.run .init ops = .ok s) :
    (Op.discard .initial ∉ ops → s.step (.discard .handshake) = .error .panic) ∧
    s.step (.discard .app) = .error .panic ∧
    (Op.discard .initial ∈ ops → ∀ sp, sp ≠ .app → ∃ s', s.step (.discard sp) = .ok s') := by
  have h := C85_discard hr .initial
  refine ⟨fun hn => ?_, by cases s <;> rfl, fun hm sp hsp => ?_⟩
  · rw [← h] at hn
    cases s with
    | initial i h a => rfl
    | handshake h a => exact absurd rfl hn
    | application a => exact absurd rfl hn
  · rw [← h] at hm
    cases s with
    | initial i h a => cases hm
    | handshake h a => cases sp <;> first | exact ⟨_, rfl⟩ | exact absurd rfl hsp
    | application a => cases sp <;> first | exact ⟨_, rfl⟩ | exact absurd rfl hsp

/-! ## Examples -/

/-- A message in two packets, the first of which is lost; a frame from the peer arrives early. -/
def exampleOps : List COp :=
  [.send [1, 2, 3, 4, 5, 6, 7, 8], .write false 1200 7 100, .write false 1200 30 100, .lost 0, .acked 1,
   .receive 2 [7, 8], .write false 1200 30 100, .receive 0 [5, 6]]

example : Valid exampleOps := by
  refine ⟨fun sni limit rem split h => ?_, by decide⟩
  simp only [exampleOps, List.mem_cons, List.not_mem_nil, COp.write.injEq, reduceCtorEq, false_or, or_false] at h
  omega
example : (CStream.run {} exampleOps).map (fun c => (c.frames.map fun f => (f.off, f.data), c.delivered)) =
    .ok ([(0, [1, 2, 3, 4]), (4, [5, 6, 7, 8]), (0, [1, 2, 3, 4])], [5, 6, 7, 8]) := by decide +kernel
/-- `C85_progress`, `C85_fills`: after the loss, the first four bytes are neither acknowledged nor on their way. -/
example : (CStream.run {} (exampleOps.take 5)).map (fun c => (c.acks, c.live, isEmpty c.tx)) = .ok ([1], [], false) := by
  decide +kernel
/-- `C85_nothing_forgotten` -/
example : (CStream.run {} exampleOps).map (fun c => (c.acks, c.live, isEmpty c.tx)) = .ok ([1], [2], true) := by
  decide +kernel
/-- `C85_once_without_loss` -/
example : Quiet (exampleOps.take 3) := by
  intro op h
  simp only [exampleOps, List.take, List.mem_cons, List.not_mem_nil, or_false] at h
  rcases h with rfl | rfl | rfl <;> simp
/-- `C85_spaces_independent`, `C85_discard` -/
example : (Streams.run .init [.on .initial (.send [1, 2]), .on .handshake (.send [3]), .discard .initial,
    .on .handshake (.write false 1200 30 100)]).map (fun s => (s.get .handshake).map (·.frames.map (·.data))) =
    .ok (some [[3]]) := by decide +kernel

end Neqo.Crypto
