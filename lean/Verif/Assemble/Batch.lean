import Verif.Assemble.Examples

/-! # C88: batches of datagrams can be sent with segmentation offload -/

namespace Neqo.Asm

/-! ## Specification -/

/-- What is known of the connection while a batch is made: the path MTU stays the same, the limit of
the send profile does not exceed it, and a probe is not smaller than the limit and not larger than
`most`. -/
structure Steady {σ : Type} (W : World σ) (mtu most : Nat) : Prop where
  same : ∀ s b, (W.conn s b).mtu = mtu
  limit : ∀ s b, (W.conn s b).limit ≤ mtu
  probe : ∀ s b, (W.conn s b).probe = (W.conn s false).probe
  size : ∀ s b p, (W.conn s b).probe = some p → (W.conn s b).limit ≤ p ∧ p ≤ most
  room : mtu ≤ most

/-- The sizes of the datagrams of a batch. -/
def sizes {σ : Type} (b : Batch σ) : List Nat := b.map fun x => x.2.2.len

/-- What segmentation offload asks of the sizes: all are equal, except that the last may be
smaller. -/
def Segments (l : List Nat) : Prop :=
  ∃ n k last, l = List.replicate k n ++ [last] ∧ last ≤ n

/-! ## Lemmas -/

/-- What holds of the batch while the loop is running: all datagrams have the size of the first. -/
structure BInv {σ : Type} (W : World σ) (mtu most : Nat) (b : Batch σ) : Prop where
  same : ∃ n, sizes b = List.replicate b.length n
  total : b.bytes ≤ most
  count : b.length * mtu ≤ most
  rest : ∀ x ∈ b.tail, (W.conn x.1 false).probe = none ∧ x.2.1 = false
  made : ∀ x ∈ b, output (W.conn x.1 x.2.1) (W.wr x.1) = .ok (some x.2.2)

theorem bytes_append {σ : Type} (b : Batch σ) (x : σ × Bool × Dgram) :
    Batch.bytes (b ++ [x]) = b.bytes + x.2.2.len := by
  unfold Batch.bytes
  simp

theorem output_len {σ : Type} {W : World σ} {mtu most : Nat} (hw : Steady W mtu most) {s : σ} {c : Bool}
    {d : Dgram} (e : output (W.conn s c) (W.wr s) = .ok (some d)) :
    d.len ≤ most ∧ ((W.conn s false).probe = none → d.len ≤ mtu) := by
  obtain ⟨h1, h2⟩ := C87_size (fun p hp => (hw.size s c p hp).1) e
  cases hp : (W.conn s c).probe with
  | none =>
    have := h1 hp
    have h3 := hw.limit s c
    have h4 := hw.room
    exact ⟨by omega, fun _ => by omega⟩
  | some p =>
    have h3 := h2 p hp
    have h4 := (hw.size s c p hp).2
    refine ⟨by omega, fun hn => ?_⟩
    rw [← hw.probe s c, hp] at hn
    cases hn

/-- The result of a loop that started well. -/
structure BRes {σ : Type} (W : World σ) (mtu most : Nat) (b : Batch σ) : Prop where
  seg : b ≠ [] → Segments (sizes b)
  total : b.bytes ≤ most
  count : b.length * mtu ≤ most
  rest : ∀ x ∈ b.tail, (W.conn x.1 false).probe = none ∧ x.2.1 = false
  made : ∀ x ∈ b, output (W.conn x.1 x.2.1) (W.wr x.1) = .ok (some x.2.2)

theorem BInv.res {σ : Type} {W : World σ} {mtu most : Nat} {b : Batch σ} (i : BInv W mtu most b) :
    BRes W mtu most b := by
  refine ⟨?_, i.total, i.count, i.rest, i.made⟩
  intro hb
  obtain ⟨n, hn⟩ := i.same
  refine ⟨n, b.length - 1, n, ?_, Nat.le_refl _⟩
  rw [hn, ← List.replicate_succ']
  congr 1
  have : b.length ≠ 0 := by simpa using hb
  omega

theorem full_ok {σ : Type} {W : World σ} {mtu most : Nat} {s : σ} {b : Batch σ}
    (i : BInv W mtu most b) : ∃ r, full W mtu most s b = .ok r ∧
      (r = false → b = [] ∨ ((W.conn s false).probe = none ∧ b.bytes + mtu ≤ most ∧
        ∀ x ∈ b, mtu ≤ x.2.2.len)) := by
  unfold full
  cases b with
  | nil => exact ⟨false, rfl, fun _ => .inl rfl⟩
  | cons first t =>
    dsimp only
    split
    · exact ⟨true, rfl, fun h => by cases h⟩
    · rename_i hp
      split
      · exact ⟨true, rfl, fun h => by cases h⟩
      · rename_i hl
        have ht := i.total
        rw [if_neg (by omega)]
        refine ⟨_, rfl, fun h => .inr ⟨?_, ?_, ?_⟩⟩
        · cases hq : (W.conn s false).probe with
          | none => rfl
          | some p => rw [hq] at hp; exact absurd rfl hp
        · simp at h
          omega
        · obtain ⟨n, hn⟩ := i.same
          intro x hx
          have hm : ∀ y ∈ (first :: t : Batch σ), y.2.2.len = n := by
            intro y hy
            have : y.2.2.len ∈ sizes (first :: t) := List.mem_map_of_mem (f := fun x => x.2.2.len) hy
            rw [hn] at this
            exact (List.mem_replicate.mp this).2
          have h1 := hm first List.mem_cons_self
          have h2 := hm x hx
          omega

theorem loop_res {σ : Type} {W : World σ} {mtu most : Nat} (hw : Steady W mtu most)
    (po : ∀ s, Polite (W.wr s)) :
    ∀ n s c (b : Batch σ), BInv W mtu most b → (b ≠ [] → c = false) →
      ∃ b', batchLoop W mtu most n s c b = .ok b' ∧ BRes W mtu most b' ∧
        b'.length ≤ b.length + n ∧ (b <+: b') ∧
        (∀ x t, b = [] → b' = x :: t → x.1 = s ∧ x.2.1 = c) := by
  intro n
  induction n with
  | zero =>
    intro s c b i _
    refine ⟨b, rfl, i.res, Nat.le_refl _, List.prefix_refl _, ?_⟩
    intro x t h1 h2
    rw [h1] at h2
    cases h2
  | succ n ih =>
    intro s c b i hc
    obtain ⟨r, hf, hr⟩ := full_ok (s := s) i
    unfold batchLoop
    rw [hf]
    cases r with
    | true =>
      refine ⟨b, rfl, i.res, by omega, List.prefix_refl _, ?_⟩
      intro x t h1 h2
      rw [h1] at h2
      cases h2
    | false =>
      obtain ⟨o, ho⟩ := C87_no_error (c := W.conn s c) (po s)
      dsimp only
      rw [ho]
      cases o with
      | none =>
        refine ⟨b, rfl, i.res, by omega, List.prefix_refl _, ?_⟩
        intro x t h1 h2
        rw [h1] at h2
        cases h2
      | some d =>
        have hlen := output_len hw ho
        cases b with
        | nil =>
          have i' : BInv W mtu most [(s, c, d)] := by
            refine ⟨⟨d.len, rfl⟩, ?_, by simpa using hw.room, ?_, ?_⟩
            · unfold Batch.bytes
              simpa using hlen.1
            · intro x hx; cases hx
            · intro x hx
              rw [List.mem_singleton.mp hx]
              exact ho
          obtain ⟨b', h1, h2, h3, h4, _⟩ := ih (W.next s c d) false _ i' (fun _ => rfl)
          refine ⟨b', h1, h2, by simp only [List.length_cons, List.length_nil] at h3 ⊢; omega,
            List.nil_prefix, ?_⟩
          intro x t _ hx
          obtain ⟨z, hz⟩ := h4
          rw [hx] at hz
          have := (List.cons.inj hz).1
          rw [← this]
          exact ⟨rfl, rfl⟩
        | cons first t =>
          have hcf := hc (by simp)
          subst hcf
          rcases hr rfl with h0 | ⟨h1, h2, h3⟩
          · cases h0
          · have hd := hlen.2 h1
            have hfirst := h3 first List.mem_cons_self
            have hrest : ∀ x ∈ ((first :: t) ++ [(s, false, d)] : Batch σ).tail,
                (W.conn x.1 false).probe = none ∧ x.2.1 = false := by
              intro x hx
              rw [List.cons_append, List.tail_cons] at hx
              rcases List.mem_append.mp hx with h4 | h4
              · exact i.rest x h4
              · rw [List.mem_singleton.mp h4]
                exact ⟨h1, rfl⟩
            have hmade : ∀ x ∈ ((first :: t) ++ [(s, false, d)] : Batch σ),
                output (W.conn x.1 x.2.1) (W.wr x.1) = .ok (some x.2.2) := by
              intro x hx
              rcases List.mem_append.mp hx with h4 | h4
              · exact i.made x h4
              · rw [List.mem_singleton.mp h4]
                exact ho
            have htot : Batch.bytes ((first :: t) ++ [(s, false, d)]) ≤ most := by
              rw [bytes_append]
              dsimp only
              omega
            obtain ⟨m, hm⟩ := i.same
            have hfm : first.2.2.len = m := by
              have : first.2.2.len ∈ sizes (first :: t) :=
                List.mem_map_of_mem (f := fun x : σ × Bool × Dgram => x.2.2.len) List.mem_cons_self
              rw [hm] at this
              exact (List.mem_replicate.mp this).2
            have hcount : ((first :: t) ++ [(s, false, d)] : Batch σ).length * mtu ≤ most := by
              have hb : Batch.bytes (first :: t) = (first :: t).length * m := by
                show (sizes (first :: t)).sum = _
                rw [hm, List.sum_replicate_nat]
              rw [hb] at h2
              rw [List.length_append, List.length_singleton, Nat.add_mul]
              have : (first :: t).length * mtu ≤ (first :: t).length * m :=
                Nat.mul_le_mul_left _ (by omega)
              omega
            show ∃ b', (if first.2.2.len < d.len then Except.error Err.panic
              else if d.len < first.2.2.len then Except.ok ((first :: t) ++ [(s, false, d)])
              else batchLoop W mtu most n (W.next s false d) false ((first :: t) ++ [(s, false, d)])) = _ ∧ _
            rw [if_neg (by omega)]
            split
            · rename_i hlt
              refine ⟨_, rfl, ⟨?_, htot, hcount, hrest, hmade⟩, by simp, List.prefix_append _ _, ?_⟩
              · intro _
                refine ⟨m, (first :: t).length, d.len, ?_, by omega⟩
                unfold sizes at hm ⊢
                rw [List.map_append, hm]
                rfl
              · intro x u h0; cases h0
            · rename_i hge
              have i' : BInv W mtu most ((first :: t) ++ [(s, false, d)]) := by
                refine ⟨⟨m, ?_⟩, htot, hcount, hrest, hmade⟩
                have hdm : d.len = m := by omega
                rw [List.length_append, List.length_singleton, List.replicate_succ']
                unfold sizes at hm ⊢
                rw [List.map_append, hm, ← hdm]
                rfl
              obtain ⟨b', g1, g2, g3, g4, _⟩ := ih (W.next s false d) false _ i' (fun _ => rfl)
              refine ⟨b', g1, g2, ?_, (List.prefix_append _ _).trans g4, ?_⟩
              · rw [List.length_append, List.length_singleton] at g3
                omega
              · intro x u h0; cases h0

theorem bInv_nil {σ : Type} (W : World σ) (mtu most : Nat) : BInv W mtu most [] :=
  ⟨⟨0, rfl⟩, Nat.zero_le _, (by simp), (by intro x h; cases h), (by intro x h; cases h)⟩

theorem batch_res {σ : Type} {W : World σ} {mtu most : Nat} (hw : Steady W mtu most)
    (po : ∀ s, Polite (W.wr s)) (max : Nat) (s : σ) (c : Bool) :
    ∃ b', batchLoop W mtu most max s c [] = .ok b' ∧ BRes W mtu most b' ∧ b'.length ≤ max ∧
      (∀ x t, b' = x :: t → x.1 = s ∧ x.2.1 = c) := by
  obtain ⟨b', h1, h2, h3, _, h5⟩ := loop_res hw po max s c [] (bInv_nil W mtu most) (fun h => absurd rfl h)
  exact ⟨b', h1, h2, by simpa using h3, fun x t => h5 x t rfl⟩

theorem batch_some {σ : Type} {W : World σ} {mtu most max : Nat} {s : σ} {c : Bool} {b : Batch σ}
    (e : batch W mtu most max s c = .ok (some b)) :
    batchLoop W mtu most max s c [] = .ok b ∧ b ≠ [] := by
  unfold batch at e
  obtain ⟨b', e1, e2⟩ := Except.bind_eq_ok.mp e
  have e3 : (if b'.isEmpty then none else some b') = some b := Except.ok.inj e2
  split at e3
  · cases e3
  · rename_i h
    cases e3
    exact ⟨e1, by simpa using h⟩

/-! ## Theorems -/

/-- Making a batch does not fail: no underflow, no datagram larger than the first. -/
theorem C88_no_error {σ : Type} {W : World σ} {mtu most : Nat} (hw : Steady W mtu most)
    (po : ∀ s, Polite (W.wr s)) (max : Nat) (s : σ) (c : Bool) :
    ∃ r, batch W mtu most max s c = .ok r := by
  obtain ⟨b', h1, _⟩ := batch_res hw po max s c
  exact ⟨_, by unfold batch; rw [h1]; rfl⟩

/-- All datagrams of a batch have the same size, except that the last may be smaller. -/
theorem C88_equal {σ : Type} {W : World σ} {mtu most : Nat} (hw : Steady W mtu most)
    (po : ∀ s, Polite (W.wr s)) {max : Nat} {s : σ} {c : Bool} {b : Batch σ}
    (e : batch W mtu most max s c = .ok (some b)) : Segments (b.map fun x => x.2.2.len) := by
  obtain ⟨e1, e2⟩ := batch_some e
  obtain ⟨b', h1, h2, _⟩ := batch_res hw po max s c
  rw [e1] at h1
  cases h1
  exact h2.seg e2

/-- A batch has at least one datagram and at most as many as asked for, and together they are not
larger than `most`. -/
theorem C88_total {σ : Type} {W : World σ} {mtu most : Nat} (hw : Steady W mtu most)
    (po : ∀ s, Polite (W.wr s)) {max : Nat} {s : σ} {c : Bool} {b : Batch σ}
    (e : batch W mtu most max s c = .ok (some b)) :
    1 ≤ b.length ∧ b.length ≤ max ∧ (b.map fun x => x.2.2.len).sum ≤ most := by
  obtain ⟨e1, e2⟩ := batch_some e
  obtain ⟨b', h1, h2, h3, _⟩ := batch_res hw po max s c
  rw [e1] at h1
  cases h1
  refine ⟨?_, h3, h2.total⟩
  have : b.length ≠ 0 := by simpa using e2
  omega

/-- Every datagram of a batch is one that the connection makes; only the first can be made while a path
MTU probe is wanted, and the closing frame goes into the first and no other. -/
theorem C88_first {σ : Type} {W : World σ} {mtu most : Nat} (hw : Steady W mtu most)
    (po : ∀ s, Polite (W.wr s)) {max : Nat} {s : σ} {c : Bool} {b : Batch σ}
    (e : batch W mtu most max s c = .ok (some b)) :
    (∀ x ∈ b, output (W.conn x.1 x.2.1) (W.wr x.1) = .ok (some x.2.2)) ∧
    (∀ x ∈ b.tail, (W.conn x.1 false).probe = none ∧ x.2.1 = false) ∧
    (∀ x, b.head? = some x → x.1 = s ∧ x.2.1 = c) := by
  obtain ⟨e1, e2⟩ := batch_some e
  obtain ⟨b', h1, h2, _, h4⟩ := batch_res hw po max s c
  rw [e1] at h1
  cases h1
  refine ⟨h2.made, h2.rest, ?_⟩
  intro x hx
  cases b with
  | nil => cases hx
  | cons y t =>
    cases hx
    exact h4 _ t rfl

/-- A path MTU probe in a batch is the first datagram. -/
theorem C88_probe_first {σ : Type} {W : World σ} {mtu most : Nat} (hw : Steady W mtu most)
    (po : ∀ s, Polite (W.wr s)) {max : Nat} {s : σ} {c : Bool} {b : Batch σ}
    (e : batch W mtu most max s c = .ok (some b)) :
    ∀ x ∈ b.tail, x.2.2.len ≤ mtu := by
  obtain ⟨h1, h2, _⟩ := C88_first hw po e
  intro x hx
  have hm : x ∈ b := List.mem_of_mem_tail hx
  exact (output_len hw (h1 x hm)).2 (h2 x hx).1

/-- The table of MTU sizes (pmtud.rs:26-33). -/
def mtuTable (v6 : Bool) : List Nat :=
  if v6 then [1280, 1380, 1420, 1470, 1500, 2047, 4095, 8191, 16383, 32767, 65535]
  else [1280, 1380, 1420, 1472, 1500, 2047, 4095, 8191, 16383, 32767, 65535]

/-- The IP and UDP headers (pmtud.rs:75-82). -/
def headers (v6 : Bool) : Nat := if v6 then 48 else 28

/-- Although the check on the size of the batch does not count headers, the batch as a whole never
exceeds the largest UDP payload of the address family, when no probe is wanted. -/
theorem C88_fits_udp {σ : Type} {W : World σ} {v6 : Bool} {m : Nat} (hm : m ∈ mtuTable v6)
    (hw : Steady W (m - headers v6) 65535)
    (po : ∀ s, Polite (W.wr s)) {max : Nat} {s : σ} {c : Bool} {b : Batch σ}
    (hn : (W.conn s false).probe = none)
    (e : batch W (m - headers v6) 65535 max s c = .ok (some b)) :
    (b.map fun x => x.2.2.len).sum ≤ 65535 - headers v6 := by
  obtain ⟨e1, e2⟩ := batch_some e
  obtain ⟨b', h1, h2, h3, h4⟩ := batch_res hw po max s c
  rw [e1] at h1
  cases h1
  have hall : ∀ x ∈ b, x.2.2.len ≤ m - headers v6 := by
    cases b with
    | nil => intro x hx; cases hx
    | cons y t =>
      intro x hx
      rcases List.mem_cons.mp hx with h5 | h5
      · subst h5
        have := h4 x t rfl
        exact (output_len hw (h2.made x hx)).2 (by rw [this.1]; exact hn)
      · exact (output_len hw (h2.made x hx)).2 (h2.rest x h5).1
  have hsum : ∀ l : Batch σ, (∀ x ∈ l, x.2.2.len ≤ m - headers v6) →
      (l.map fun x => x.2.2.len).sum ≤ l.length * (m - headers v6) := by
    intro l
    induction l with
    | nil => intro _; simp
    | cons y t ih =>
      intro h
      have := ih (fun x hx => h x (List.mem_cons_of_mem _ hx))
      have h6 := h y List.mem_cons_self
      rw [List.map_cons, List.sum_cons, List.length_cons, Nat.add_mul]
      omega
  have h7 := hsum b hall
  have h8 := h2.count
  have key : ∀ v6, ∀ m ∈ mtuTable v6, 0 < m - headers v6 ∧
      65535 / (m - headers v6) * (m - headers v6) ≤ 65535 - headers v6 := by decide
  obtain ⟨k1, k2⟩ := key v6 m hm
  have h9 : b.length ≤ 65535 / (m - headers v6) := (Nat.le_div_iff_mul_le k1).mpr h8
  have h10 := Nat.mul_le_mul_right (m - headers v6) h9
  omega

/-! ## Findings and examples -/

/-- A client that sends data: the state is what is left to send. -/
def exWorld : World Nat where
  conn := fun _ b => { exConn with connected := true, keys := exKeys false false (some false), closing := b }
  wr := fun n => exW (fun _ => 0) (at1 .app n)
  next := fun n _ _ => n - 1226

theorem exWorld_steady : Steady exWorld 1252 65535 := by
  constructor
  · intro s b; rfl
  · intro s b; exact Nat.le_refl _
  · intro s b; rfl
  · intro s b p h; cases h
  · decide

/-- Three thousand bytes go out as two full datagrams and a smaller one. -/
example :
    ∃ b, batch exWorld 1252 65535 10 3000 false = .ok (some b) ∧
      (b.map fun x => x.2.2.len) = [1252, 1252, 574] := by
  refine ⟨_, rfl, ?_⟩
  decide +kernel

/-- With a limit on the number of datagrams. -/
example :
    ∃ b, batch exWorld 1252 65535 2 3000 false = .ok (some b) ∧
      (b.map fun x => x.2.2.len) = [1252, 1252] := by
  refine ⟨_, rfl, ?_⟩
  decide +kernel

example : batch exWorld 1252 65535 10 0 false = .ok none := by decide +kernel

/-- A connection that is closing during the handshake, with CRYPTO data unsent. -/
def closingWorld : World Unit where
  conn := fun _ b => { exConn with closing := b, keys := exKeys true false none }
  wr := fun _ => exW (fun _ => 0) (at1 .initial 300)
  next := fun _ _ _ => ()

def closingBatch : Batch Unit :=
  match batch closingWorld 1252 65535 2 () true with
  | .ok (some b) => b
  | _ => []

/-- **Finding.** A closing endpoint must send nothing but CONNECTION_CLOSE (RFC 9000, section 10.2.1),
but if the datagram with the closing frame is padded to the path MTU and the caller allows a batch, the
datagrams after it hold ordinary frames: the closing frame is only given to the first. -/
theorem C88_frames_after_close :
    Steady closingWorld 1252 65535 ∧ (∀ s, Polite (closingWorld.wr s)) ∧
    ∃ b, batch closingWorld 1252 65535 2 () true = .ok (some b) ∧
      (b.map fun x => (x.2.1, x.2.2.len)) = [(true, 1252), (false, 1252)] ∧
      (b.map fun x => x.2.2.pkts.map fun p => p.elicits) = [[false], [true]] := by
  refine ⟨?_, fun _ => exW_polite _ _, closingBatch, by decide +kernel, ?_, ?_⟩
  · constructor
    · intro s b; rfl
    · intro s b; exact Nat.le_refl _
    · intro s b; rfl
    · intro s b p h; cases h
    · decide
  · decide +kernel
  · decide +kernel

end Neqo.Asm
