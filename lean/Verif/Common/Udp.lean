import Verif.Assemble.BatchSplit

/-!
# UDP sockets: `neqo-udp/src/lib.rs`, and the type of service: `neqo-common/src/tos.rs`

`quinn-udp` and the kernel are not modelled; what is expected of them is in `Group.Whole`.
-/
namespace Neqo.Udp
open Neqo.Codec (Bytes)
open Neqo.Asm (chunks GsoBatch)

/-! ## The model -/

/-- Panics: a slice that is longer than the buffer, a chunk size of zero, or an empty datagram. -/
inductive Panic where
  | slice | chunk | empty
  deriving Repr, DecidableEq

/-- `Ecn::from(Tos)` (neqo-common/src/tos.rs:35-45): 0 is not ECN-capable, 1 is ECT(1), 2 is ECT(0), 3 is CE. -/
def ecnOf (tos : Nat) : Nat := tos &&& 3

/-- `Dscp::from(Tos)` (neqo-common/src/tos.rs:162-172). -/
def dscpOf (tos : Nat) : Nat := tos &&& 252

/-- `Tos::set_ecn` (neqo-common/src/tos.rs:224-226). -/
def setEcn (tos ecn : Nat) : Nat := dscpOf tos ||| ecn

/-- `Tos::set_dscp` (neqo-common/src/tos.rs:228-230). -/
def setDscp (tos dscp : Nat) : Nat := ecnOf tos ||| dscp

/-- `EcnCodepoint::from_bits` of `quinn-udp`: nothing if the packet is not ECN-capable. -/
def codepoint (bits : Nat) : Option Nat := if bits &&& 3 = 0 then none else some (bits &&& 3)

/-- `Transmit` as filled in by `send_inner` (neqo-udp/src/lib.rs:65-71). -/
structure Transmit where
  destination : Nat
  ecn : Option Nat
  contents : Bytes
  segment : Nat
  deriving Repr, DecidableEq

/-- `send_inner` up to the call of the kernel (neqo-udp/src/lib.rs:60-71). -/
def transmit (destination tos : Nat) (b : GsoBatch) : Transmit := ⟨destination, codepoint tos, b.data, b.size⟩

/-- What the kernel may say. -/
inductive Io where
  | ok | emsgsize | enobufs | other (code : Nat)
  deriving Repr, DecidableEq

/-- The end of `send_inner` (neqo-udp/src/lib.rs:73-105): none is success. -/
def sent : Io → Option Nat
  | .ok => none
  | .emsgsize => none
  | .enobufs => none
  | .other c => some c

/-- `RecvMeta` of `quinn-udp`. -/
structure Meta where
  addr : Nat
  len : Nat
  stride : Nat
  ecn : Option Nat
  deriving Repr, DecidableEq

/-- A datagram (neqo-common/src/datagram.rs:20-25). -/
structure Dgram where
  src : Nat
  dst : Nat
  tos : Nat
  data : Bytes
  deriving Repr, DecidableEq

/-- `Datagram::from_slice` (neqo-common/src/datagram.rs:131-134). -/
def fromSlice (src dst tos : Nat) (d : Bytes) : Except Panic Dgram :=
  if d = [] then .error .empty else .ok ⟨src, dst, tos, d⟩

/-- `struct DatagramIter` (neqo-udp/src/lib.rs:183-193). -/
structure Iter where
  current : Option (Meta × List Bytes)
  rest : List (Meta × Bytes)
  localAddr : Nat
  deriving Repr, DecidableEq

/-- `recv_inner` (neqo-udp/src/lib.rs:146-181), for what the kernel filled in. -/
def recv (localAddr : Nat) (filled : List (Meta × Bytes)) : Iter := ⟨none, filled, localAddr⟩

/-- `buf[0..meta.len].chunks_mut(meta.stride)` (neqo-udp/src/lib.rs:235). -/
def cut (m : Meta) (buf : Bytes) : Except Panic (List Bytes) :=
  if buf.length < m.len then .error .slice
  else if m.stride = 0 then .error .chunk
  else .ok (chunks m.stride (buf.take m.len))

/-- The buffers that are left, when the current one is finished (neqo-udp/src/lib.rs:214-236, and then
200-212). -/
def nextBuffer (localAddr : Nat) : List (Meta × Bytes) → Except Panic (Option Dgram × Iter)
  | [] => .ok (none, ⟨none, [], localAddr⟩)
  | (m, buf) :: rest =>
    if m.len = 0 ∨ m.stride = 0 then nextBuffer localAddr rest
    else
      match cut m buf with
      | .error e => .error e
      | .ok [] => nextBuffer localAddr rest
      | .ok (d :: ds) =>
        match fromSlice m.addr localAddr (m.ecn.getD 0) d with
        | .error e => .error e
        | .ok g => .ok (some g, ⟨some (m, ds), rest, localAddr⟩)

/-- `DatagramIter::next` (neqo-udp/src/lib.rs:198-237). -/
def Iter.next (it : Iter) : Except Panic (Option Dgram × Iter) :=
  match it.current with
  | some (m, d :: ds) =>
    match fromSlice m.addr it.localAddr (m.ecn.getD 0) d with
    | .error e => .error e
    | .ok g => .ok (some g, { it with current := some (m, ds) })
  | _ => nextBuffer it.localAddr it.rest

/-- `next` is called `n` times. -/
def Iter.take (it : Iter) : Nat → Except Panic (List (Option Dgram))
  | 0 => .ok []
  | n + 1 =>
    match it.next with
    | .error e => .error e
    | .ok (o, it') =>
      match it'.take n with
      | .error e => .error e
      | .ok l => .ok (o :: l)

/-! ## Specification -/

/-- Datagrams that arrived from one place with the same mark, and that the kernel put into one buffer. -/
structure Group where
  src : Nat
  ecn : Option Nat
  ds : List Bytes
  deriving Repr, DecidableEq

/-- What the kernel fills in for a group: the datagrams one after the other at the start of the buffer, and
the size that they have, except that the last may be shorter. Or it is a single one, which may be empty. -/
def Group.Whole (g : Group) (m : Meta) (buf : Bytes) : Prop :=
  m.addr = g.src ∧ m.ecn = g.ecn ∧ m.len = g.ds.flatten.length ∧ g.ds.flatten <+: buf ∧
    ∃ init last, g.ds = init ++ [last] ∧ (∀ d ∈ init, d.length = m.stride) ∧ last.length ≤ m.stride ∧
      (init ≠ [] → last ≠ [])

/-- The buffers hold the groups. -/
inductive Filled : List Group → List (Meta × Bytes) → Prop where
  | nil : Filled [] []
  | cons {g m buf gs l} : g.Whole m buf → Filled gs l → Filled (g :: gs) ((m, buf) :: l)

/-- The datagrams of a group, but for empty ones. -/
def Group.datagrams (localAddr : Nat) (g : Group) : List Dgram :=
  (g.ds.filter (· ≠ [])).map fun d => ⟨g.src, localAddr, g.ecn.getD 0, d⟩

/-! ## Lemmas -/

/-- What an iterator has yet to give. -/
def pendingOf (localAddr : Nat) (m : Meta) (ds : List Bytes) : List Dgram :=
  ds.map fun d => ⟨m.addr, localAddr, m.ecn.getD 0, d⟩

def pendingRest (localAddr : Nat) (rest : List (Meta × Bytes)) : List Dgram :=
  rest.flatMap fun x => if x.1.stride = 0 then [] else pendingOf localAddr x.1 (chunks x.1.stride (x.2.take x.1.len))

def Iter.pending (it : Iter) : List Dgram :=
  (match it.current with
    | some (m, ds) => pendingOf it.localAddr m ds
    | none => []) ++ pendingRest it.localAddr it.rest

/-- Nothing is longer than its buffer. -/
def Fits (rest : List (Meta × Bytes)) : Prop := ∀ x ∈ rest, x.1.len ≤ x.2.length

structure Ok (it : Iter) : Prop where
  fits : Fits it.rest
  chunks : ∀ m ds, it.current = some (m, ds) → ∀ d ∈ ds, d ≠ []

theorem chunks_ne {n : Nat} (hn : n ≠ 0) (d : Bytes) : ∀ x ∈ chunks n d, x ≠ [] :=
  fun x hx => ((Asm.C113_whole ⟨n, d⟩ hn).2 x hx).1

theorem nextBuffer_ok (a : Nat) (rest : List (Meta × Bytes)) (hf : Fits rest) :
    ∃ it, nextBuffer a rest = .ok ((pendingRest a rest).head?, it) ∧ Ok it ∧ it.pending = (pendingRest a rest).tail := by
  induction rest with
  | nil => exact ⟨_, rfl, ⟨hf, fun m ds h => by cases h⟩, rfl⟩
  | cons x rest ih =>
    obtain ⟨m, buf⟩ := x
    have hf' : Fits rest := fun y hy => hf y (List.mem_cons_of_mem _ hy)
    have hl : m.len ≤ buf.length := hf (m, buf) (List.mem_cons_self ..)
    unfold nextBuffer
    by_cases h0 : m.len = 0 ∨ m.stride = 0
    · rw [if_pos h0]
      have e : pendingRest a ((m, buf) :: rest) = pendingRest a rest := by
        unfold pendingRest
        rw [List.flatMap_cons]
        dsimp only
        rcases h0 with h0 | h0
        · rw [h0, List.take_zero]
          split
          · rfl
          · rw [chunks, dif_pos (Or.inl rfl)]
            rfl
        · rw [if_pos h0]
          rfl
      rw [e]
      exact ih hf'
    · rw [if_neg h0]
      have hs : m.stride ≠ 0 := fun h => h0 (.inr h)
      have e : pendingRest a ((m, buf) :: rest) = pendingOf a m (chunks m.stride (buf.take m.len)) ++ pendingRest a rest := by
        unfold pendingRest
        rw [List.flatMap_cons]
        dsimp only
        rw [if_neg hs]
      have hc : cut m buf = .ok (chunks m.stride (buf.take m.len)) := by
        unfold cut
        rw [if_neg (by omega), if_neg hs]
      have hne := chunks_ne hs (buf.take m.len)
      rw [e, hc]
      generalize chunks m.stride (buf.take m.len) = cs at hne ⊢
      cases cs with
      | nil => exact ih hf'
      | cons d ds =>
        dsimp only
        have : fromSlice m.addr a (m.ecn.getD 0) d = .ok ⟨m.addr, a, m.ecn.getD 0, d⟩ := by
          unfold fromSlice
          rw [if_neg (hne d (List.mem_cons_self ..))]
        rw [this]
        refine ⟨_, rfl, ⟨hf', fun m' ds' h => ?_⟩, rfl⟩
        cases h
        exact fun x hx => hne x (List.mem_cons_of_mem _ hx)

theorem next_ok {it : Iter} (h : Ok it) :
    ∃ it', it.next = .ok (it.pending.head?, it') ∧ Ok it' ∧ it'.pending = it.pending.tail := by
  obtain ⟨c, rest, a⟩ := it
  unfold Iter.next
  have hb := nextBuffer_ok a rest h.fits
  cases c with
  | none => exact hb
  | some x =>
    obtain ⟨m, ds⟩ := x
    cases ds with
    | nil => exact hb
    | cons d ds =>
      dsimp only
      have hd := h.chunks m (d :: ds) rfl
      have : fromSlice m.addr a (m.ecn.getD 0) d = .ok ⟨m.addr, a, m.ecn.getD 0, d⟩ := by
        unfold fromSlice
        rw [if_neg (hd d (List.mem_cons_self ..))]
      rw [this]
      refine ⟨_, rfl, ⟨h.fits, fun m' ds' e => ?_⟩, rfl⟩
      cases e
      exact fun x hx => hd x (List.mem_cons_of_mem _ hx)

theorem take_ok (n : Nat) : ∀ {it : Iter}, Ok it →
    it.take n = .ok ((List.range n).map fun i => it.pending[i]?) := by
  induction n with
  | zero => intro it _; rfl
  | succ n ih =>
    intro it h
    obtain ⟨it', h1, h2, h3⟩ := next_ok h
    unfold Iter.take
    rw [h1]
    dsimp only
    rw [ih h2, h3, List.range_succ_eq_map]
    simp only [List.map_cons, List.map_map, List.head?_eq_getElem?]
    congr 2
    apply List.map_congr_left
    intro i _
    simp

theorem group_pending {a : Nat} {g : Group} {m : Meta} {buf : Bytes} (h : g.Whole m buf) :
    m.len ≤ buf.length ∧ pendingRest a [(m, buf)] = g.datagrams a := by
  obtain ⟨h1, h2, h3, h4, init, last, h5, h6, h7, h8⟩ := h
  have hle : m.len ≤ buf.length := by rw [h3]; exact h4.length_le
  refine ⟨hle, ?_⟩
  have ht : buf.take m.len = g.ds.flatten := by
    obtain ⟨t, rfl⟩ := h4
    rw [h3, List.take_left]
  unfold pendingRest Group.datagrams
  rw [List.flatMap_cons, List.flatMap_nil, List.append_nil]
  dsimp only
  rw [ht]
  by_cases hs : m.stride = 0
  · rw [if_pos hs]
    have hl : last = [] := List.eq_nil_of_length_eq_zero (by omega)
    have hi : init = [] := by
      by_cases hi : init = []
      · exact hi
      · exact absurd hl (h8 hi)
    rw [h5, hi, hl]
    rfl
  · rw [if_neg hs]
    unfold pendingOf
    rw [h1, h2]
    by_cases hl : last = []
    · have hi : init = [] := by
        by_cases hi : init = []
        · exact hi
        · exact absurd hl (h8 hi)
      have e : g.ds.flatten = [] := by rw [h5, hi, hl]; rfl
      rw [e, chunks, dif_pos (Or.inl rfl), h5, hi, hl]
      rfl
    · rw [h5, Asm.chunks_segments hs hl h7 init h6]
      congr 1
      symm
      rw [List.filter_eq_self]
      intro d hd
      rcases List.mem_append.mp hd with hd | hd
      · have := h6 d hd
        simp only [ne_eq, decide_eq_true_eq]
        intro e
        rw [e] at this
        exact hs this.symm
      · rw [List.mem_singleton] at hd
        subst hd
        simpa using hl

theorem groups_pending {a : Nat} : ∀ {gs : List Group} {filled : List (Meta × Bytes)},
    Filled gs filled →
    Fits filled ∧ pendingRest a filled = gs.flatMap (Group.datagrams a)
  | [], [], .nil => ⟨fun x h => (by cases h), rfl⟩
  | _ :: _, _ :: _, .cons h1 h2 => by
    obtain ⟨i1, i2⟩ := groups_pending (a := a) h2
    obtain ⟨j1, j2⟩ := group_pending (a := a) h1
    refine ⟨fun y hy => ?_, ?_⟩
    · rcases List.mem_cons.mp hy with rfl | hy
      · exact j1
      · exact i1 y hy
    · rw [List.flatMap_cons, ← i2, ← j2]
      unfold pendingRest
      simp

/-! ## Properties -/

/-- However the kernel groups what arrived: calls of `next` give all datagrams in order, each once, with
the address and the mark that it came with, and then nothing; empty ones are left out.  Nothing panics. -/
theorem C122_received {gs : List Group} {filled : List (Meta × Bytes)} (localAddr : Nat)
    (h : Filled gs filled) (n : Nat) :
    (recv localAddr filled).take n = .ok ((List.range n).map fun i => (gs.flatMap (Group.datagrams localAddr))[i]?) := by
  obtain ⟨h1, h2⟩ := groups_pending (a := localAddr) h
  rw [take_ok n (it := recv localAddr filled) ⟨h1, fun m ds h => by cases h⟩, ← h2]
  rfl

/-- Whatever sizes the kernel reports, as long as they are within the buffers: nothing panics and no datagram
is empty. -/
theorem C122_no_panic {filled : List (Meta × Bytes)} (localAddr : Nat) (h : ∀ x ∈ filled, x.1.len ≤ x.2.length) (n : Nat) :
    ∃ l, (recv localAddr filled).take n = .ok l ∧ ∀ d, some d ∈ l → d.data ≠ [] ∧ d.dst = localAddr := by
  refine ⟨_, take_ok n (it := recv localAddr filled) ⟨h, fun m ds h => by cases h⟩, ?_⟩
  intro d hd
  obtain ⟨i, _, hi⟩ := List.mem_map.mp hd
  have hm := List.mem_of_getElem? hi
  have hm : d ∈ pendingRest localAddr filled := hm
  unfold pendingRest at hm
  obtain ⟨x, _, hx⟩ := List.mem_flatMap.mp hm
  by_cases hs : x.1.stride = 0
  · rw [if_pos hs] at hx; cases hx
  · rw [if_neg hs] at hx
    obtain ⟨b, hb, rfl⟩ := List.mem_map.mp hx
    exact ⟨chunks_ne hs _ b hb, rfl⟩

/-- The ECN bits can be set without touching the others, and the other way round. -/
theorem C122_tos {tos ecn dscp : Nat} (h : tos < 256) (he : ecn < 4) (hd : dscp < 256) (hm : dscp % 4 = 0) :
    ecnOf (setEcn tos ecn) = ecn ∧ setEcn tos ecn / 4 = tos / 4 ∧
      ecnOf (setDscp tos dscp) = tos % 4 ∧ setDscp tos dscp / 4 = dscp / 4 := by
  have h1 : ∀ t : Fin 256, ∀ e : Fin 4, ecnOf (setEcn t.val e.val) = e.val ∧ setEcn t.val e.val / 4 = t.val / 4 := by
    decide +kernel
  have h2 : ∀ t : Fin 4, ∀ d : Fin 64, ecnOf (t.val ||| d.val * 4) = t.val ∧ (t.val ||| d.val * 4) / 4 = d.val := by
    decide +kernel
  have h3 : ecnOf tos = tos % 4 := Nat.and_two_pow_sub_one_eq_mod tos 2
  obtain ⟨a, b⟩ := h1 ⟨tos, h⟩ ⟨ecn, he⟩
  obtain ⟨c, d⟩ := h2 ⟨tos % 4, by omega⟩ ⟨dscp / 4, by omega⟩
  dsimp only at c d
  rw [show dscp / 4 * 4 = dscp by omega] at c d
  refine ⟨a, b, ?_, ?_⟩
  · unfold setDscp; rw [h3]; exact c
  · unfold setDscp; rw [h3]; exact d

/-- A batch that is sent from one endpoint to another: if the network loses nothing and the kernel of the
receiver hands over what the kernel of the sender cut, in whatever groups, the receiver gets exactly the
datagrams of the batch, with their ECN mark.  The other bits of the type of service are zero. -/
theorem C122_through {b : GsoBatch} (hs : b.size ≠ 0) {src dst tos : Nat} {gs : List Group} {filled : List (Meta × Bytes)}
    (hg : (gs.map (·.ds)).flatten = chunks (transmit dst tos b).segment (transmit dst tos b).contents)
    (hm : ∀ g ∈ gs, g.src = src ∧ g.ecn = (transmit dst tos b).ecn)
    (h : Filled gs filled) (n : Nat) :
    (recv dst filled).take n = .ok ((List.range n).map fun i => (b.iter.map fun d => (⟨src, dst, tos % 4, d⟩ : Dgram))[i]?) := by
  rw [C122_received dst h n]
  have hecn : (codepoint tos).getD 0 = tos % 4 := by
    have : tos &&& 3 = tos % 4 := Nat.and_two_pow_sub_one_eq_mod tos 2
    unfold codepoint
    rw [this]
    split
    · rename_i e; rw [e]; rfl
    · rfl
  have key : ∀ gs : List Group, (∀ g ∈ gs, g.src = src ∧ g.ecn = codepoint tos) → (∀ d ∈ (gs.map (·.ds)).flatten, d ≠ []) →
      gs.flatMap (Group.datagrams dst) = (gs.map (·.ds)).flatten.map fun d => (⟨src, dst, tos % 4, d⟩ : Dgram) := by
    intro gs
    induction gs with
    | nil => intro _ _; rfl
    | cons g gs ih =>
      intro hm hd
      rw [List.flatMap_cons, List.map_cons, List.flatten_cons, List.map_append]
      obtain ⟨m1, m2⟩ := hm g (List.mem_cons_self ..)
      rw [ih (fun g hg => hm g (List.mem_cons_of_mem _ hg)) (fun d hd' => hd d (by
        rw [List.map_cons, List.flatten_cons]; exact List.mem_append_right _ hd'))]
      congr 1
      unfold Group.datagrams
      rw [m1, m2, hecn]
      congr 1
      rw [List.filter_eq_self]
      intro d hdd
      have := hd d (by rw [List.map_cons, List.flatten_cons]; exact List.mem_append_left _ hdd)
      simpa using this
  have hg : (gs.map (·.ds)).flatten = b.iter := hg
  rw [key gs hm (by rw [hg]; exact chunks_ne hs b.data), hg]

/-- A datagram that is too large for the path, or that finds the queue full, is lost without an error; other
errors are told. -/
theorem C122_errors (r : Io) (c : Nat) : sent r = some c ↔ r = .other c := by
  cases r <;> simp [sent]

/-! ## Examples -/

/-- Three datagrams in one buffer, an empty one, and one in another buffer. -/
example : (recv 9 [(⟨1, 5, 2, some 2⟩, [1, 2, 3, 4, 5, 0, 0]), (⟨1, 0, 0, none⟩, [7]), (⟨4, 3, 3, none⟩, [6, 7, 8])]).take 5 =
    .ok [some ⟨1, 9, 2, [1, 2]⟩, some ⟨1, 9, 2, [3, 4]⟩, some ⟨1, 9, 2, [5]⟩, some ⟨4, 9, 0, [6, 7, 8]⟩, none] := by
  have h : Filled
      [⟨1, some 2, [[1, 2], [3, 4], [5]]⟩, ⟨1, none, [[]]⟩, ⟨4, none, [[6, 7, 8]]⟩]
      [(⟨1, 5, 2, some 2⟩, [1, 2, 3, 4, 5, 0, 0]), (⟨1, 0, 0, none⟩, [7]), (⟨4, 3, 3, none⟩, [6, 7, 8])] := by
    refine .cons ⟨rfl, rfl, rfl, ⟨[0, 0], rfl⟩, [[1, 2], [3, 4]], [5], rfl, by decide, by decide, by decide⟩
      (.cons ⟨rfl, rfl, rfl, ⟨[7], rfl⟩, [], [], rfl, by decide, by decide, by decide⟩
      (.cons ⟨rfl, rfl, rfl, ⟨[], rfl⟩, [], [6, 7, 8], rfl, by decide, by decide, by decide⟩ .nil))
  rw [C122_received 9 h 5]
  rfl

/-- A size that is longer than the buffer would panic. -/
example : (recv 9 [(⟨1, 3, 2, none⟩, [1, 2])]).take 1 = .error .slice := rfl

example : setEcn 184 2 = 186 ∧ setDscp 1 184 = 185 ∧ (transmit 4 186 ⟨2, [1, 2, 3]⟩).ecn = some 2 := by decide

end Neqo.Udp
