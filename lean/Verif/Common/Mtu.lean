import Verif.Codec.Model

/-!
# Asking the kernel for the MTU of an interface: C126

The crate `mtu` on Linux: what it makes of the messages that the kernel sends on a netlink socket. Integers
are little-endian here; in the code they are native. `Err.panic` stands for failing assertions and slices out of
bounds, `Err.waits` for a read that blocks.
-/
namespace Neqo.Mtu
open Neqo.Codec

/-! ## The model -/

inductive Err where
  /-- `default_err` (mtu/src/lib.rs:89-91). -/
  | notFound
  /-- An error of the kernel. -/
  | os (code : Int)
  /-- A name that is not a string. -/
  | other
  | panic
  | waits
deriving DecidableEq, Repr

/-- The value of bytes, the least significant first. -/
def unle : Bytes → Nat
  | [] => 0
  | b :: bs => b.toNat + 256 * unle bs

/-- A number in `k` bytes, the least significant first. -/
def le : Nat → Nat → Bytes
  | 0, _ => []
  | k + 1, v => UInt8.ofNat (v % 256) :: le k (v / 256)

/-- `NLMSG_ERROR`, `RTM_NEWLINK`, `RTM_NEWROUTE`, `RTA_OIF`, `IFLA_IFNAME`, `IFLA_MTU` (from libc). -/
def NLMSG_ERROR : Nat := 2
def RTM_NEWLINK : Nat := 16
def RTM_NEWROUTE : Nat := 24
def RTA_OIF : Nat := 4
def IFLA_IFNAME : Nat := 3
def IFLA_MTU : Nat := 4

/-- `NETLINK_BUFFER_SIZE` (mtu/src/linux.rs:51). -/
def bufferSize : Nat := 8192

/-- `aligned_by` with 4 (mtu/src/lib.rs:102-108). -/
def aligned (size : Nat) : Nat := if size = 0 then 4 else 1 + ((size - 1) ||| 3)

/-- `parse_c_int` (mtu/src/linux.rs:164-171). -/
def cInt (b : Bytes) : Except Err Int :=
  if b.length < 4 then .error .notFound
  else
    let n := unle (b.take 4)
    .ok (if n < 2 ^ 31 then (n : Int) else (n : Int) - 2 ^ 32)

/-- The messages of one read (mtu/src/linux.rs:178-200): the content of the one looked for, if it is there. The header
has a length of 4 bytes, a type of 2, flags of 2, a sequence number of 4 and a port of 4. -/
def scan (seq kind : Nat) (b : Bytes) : Except Err (Option Bytes) :=
  if h : 16 ≤ b.length then
    let len := unle (b.take 4)
    if hl : len < 16 then .error .panic
    else if b.length < len then .error .panic
    else
      let msg := (b.take len).drop 16
      if unle ((b.drop 8).take 4) ≠ seq then scan seq kind (b.drop len)
      else if unle ((b.drop 4).take 2) = NLMSG_ERROR then
        match cInt msg with
        | .error e => .error e
        | .ok e => if e ≠ 0 then .error (.os (-e)) else scan seq kind (b.drop len)
      else if unle ((b.drop 4).take 2) = kind then .ok (some msg)
      else scan seq kind (b.drop len)
  else .ok none
termination_by b.length
decreasing_by all_goals (simp only [List.length_drop]; omega)

/-- `read_msg_with_seq` (mtu/src/linux.rs:173-202), with the datagrams that the kernel sends: each read takes one, cut off
at the size of the buffer. -/
def read (seq kind : Nat) : List Bytes → Except Err (Bytes × List Bytes)
  | [] => .error .waits
  | d :: ds =>
    match scan seq kind (d.take bufferSize) with
    | .error e => .error e
    | .ok none => read seq kind ds
    | .ok (some msg) => .ok (msg, ds)

/-- `RtAttr::new` and `RtAttrs::next` (mtu/src/linux.rs:221-248): type, content with padding, and what follows. -/
def nextAttr (b : Bytes) : Except Err (Option (Nat × Bytes × Bytes)) :=
  if 4 ≤ b.length then
    let n := aligned (unle (b.take 2))
    if n < 4 ∨ b.length < n then .error .panic
    else .ok (some (unle ((b.drop 2).take 2), (b.take n).drop 4, b.drop n))
  else .ok none

theorem nextAttr_lt {b m r : Bytes} {t : Nat} (h : nextAttr b = .ok (some (t, m, r))) : r.length < b.length := by
  unfold nextAttr at h
  split at h
  · dsimp only at h
    split at h
    · cases h
    · injection h with h
      injection h with h
      injection h with h1 h2
      injection h2 with h2 h3
      rw [← h3, List.length_drop]
      omega
  · cases h

/-- The loop of `if_index` (mtu/src/linux.rs:262-268). -/
def findIndex (b : Bytes) : Except Err Int :=
  match h : nextAttr b with
  | .error e => .error e
  | .ok none => .error .notFound
  | .ok (some (t, m, r)) => if t = RTA_OIF then cInt m else findIndex r
termination_by b.length
decreasing_by exact nextAttr_lt h

/-- `split_off` after the assertion (mtu/src/linux.rs:258-259, 321-322). -/
def content (n : Nat) (b : Bytes) : Except Err Bytes := if n ≤ b.length then .ok (b.drop n) else .error .panic

/-- `CStr::from_bytes_until_nul` and `to_str` (mtu/src/linux.rs:330-331); `utf8` tells valid UTF-8. -/
def cStr (utf8 : Bytes → Bool) (b : Bytes) : Except Err Bytes :=
  if (0 : UInt8) ∈ b then
    let s := b.takeWhile (· ≠ 0)
    if utf8 s then .ok s else .error .other
  else .error .other

/-- The loop of `if_name_mtu` (mtu/src/linux.rs:325-347). A negative MTU is an "unlikely" error, which panics in a build
with assertions. -/
def findNameMtu (utf8 : Bytes → Bool) (b : Bytes) (name : Option Bytes) (mtu : Option Nat) : Except Err (Bytes × Nat) :=
  match h : nextAttr b with
  | .error e => .error e
  | .ok none => .error .notFound
  | .ok (some (t, m, r)) =>
    let x : Except Err (Option Bytes × Option Nat) :=
      if t = IFLA_IFNAME then
        match cStr utf8 m with
        | .error e => .error e
        | .ok s => .ok (some s, mtu)
      else if t = IFLA_MTU then
        match cInt m with
        | .error e => .error e
        | .ok i => if i < 0 then .error .panic else .ok (name, some i.toNat)
      else .ok (name, mtu)
    match x with
    | .error e => .error e
    | .ok (some s, some v) => .ok (s, v)
    | .ok (name, mtu) => findNameMtu utf8 r name mtu
termination_by b.length
decreasing_by exact nextAttr_lt h

/-- An address, in network order. -/
inductive Ip where
  | v4 (a b c d : UInt8)
  | v6 (hi lo : Fin 8 → UInt8)

/-- `AddrBytes::new` (mtu/src/linux.rs:60-65). -/
def Ip.octets : Ip → Bytes
  | .v4 a b c d => [a, b, c, d]
  | .v6 hi lo => List.ofFn hi ++ List.ofFn lo

/-- `AddrBytes::len` (mtu/src/linux.rs:67-72). -/
def Ip.len : Ip → Nat
  | .v4 .. => 4
  | .v6 .. => 16

/-- `rtm_family`, AF_INET or AF_INET6 (mtu/src/linux.rs:115-118). -/
def Ip.family : Ip → UInt8
  | .v4 .. => 2
  | .v6 .. => 10

/-- `rtm_dst_len` (mtu/src/linux.rs:119-122). -/
def Ip.bits : Ip → UInt8
  | .v4 .. => 32
  | .v6 .. => 128

/-- The conversion to 16 bytes (mtu/src/linux.rs:75-86). -/
def Ip.padded (ip : Ip) : Bytes := ip.octets ++ List.replicate (16 - ip.octets.length) 0

/-- The bytes of `IfIndexMsg::new` in memory (mtu/src/linux.rs:88-138): nlmsghdr, rtmsg, rtattr and the address. -/
def routeStruct (ip : Ip) (seq : Nat) : Bytes :=
  (le 4 (16 + 12 + 4 + ip.len) ++ le 2 26 ++ le 2 (1 ||| 4) ++ le 4 seq ++ le 4 0) ++
  ([ip.family, ip.bits, 0, 0, 254, 0, 0, 1] ++ le 4 0) ++
  (le 2 (4 + ip.len) ++ le 2 1) ++ ip.padded

/-- What is sent to ask for the route: the first `nlmsg_len` bytes (mtu/src/linux.rs:140-151); reading beyond the
structure would be undefined behaviour, here `none`. -/
def routeRequest (ip : Ip) (seq : Nat) : Option Bytes :=
  let n := unle ((routeStruct ip seq).take 4)
  if n ≤ (routeStruct ip seq).length then some ((routeStruct ip seq).take n) else none

/-- The bytes of `IfInfoMsg::new` in memory (mtu/src/linux.rs:271-299): nlmsghdr and ifinfomsg. -/
def linkStruct (index seq : Nat) : Bytes :=
  (le 4 (16 + 16) ++ le 2 18 ++ le 2 (1 ||| 4) ++ le 4 seq ++ le 4 0) ++ ([0, 0] ++ le 2 0xfffe ++ le 4 index ++ le 4 0 ++ le 4 0)

/-- What is sent to ask for the interface (mtu/src/linux.rs:301-311). -/
def linkRequest (index seq : Nat) : Option Bytes :=
  let n := unle ((linkStruct index seq).take 4)
  if n ≤ (linkStruct index seq).length then some ((linkStruct index seq).take n) else none

/-- `interface_and_mtu_impl` (mtu/src/linux.rs:350-355) with `if_index` (250-269) and `if_name_mtu` (313-348), which use
the sequence numbers `s₁` and `s₂`: what is sent, and the result. That writing to the socket fails is not modelled. -/
def lookup (utf8 : Bytes → Bool) (ip : Ip) (s₁ s₂ : Nat) (ds : List Bytes) : List (Option Bytes) × Except Err (Bytes × Nat) :=
  let r₁ := routeRequest ip s₁
  match read s₁ RTM_NEWROUTE ds with
  | .error e => ([r₁], .error e)
  | .ok (m₁, ds) =>
    match content 12 m₁ with
    | .error e => ([r₁], .error e)
    | .ok b₁ =>
      match findIndex b₁ with
      | .error e => ([r₁], .error e)
      | .ok i =>
        let r₂ := linkRequest (i % 2 ^ 32).toNat s₂
        match read s₂ RTM_NEWLINK ds with
        | .error e => ([r₁, r₂], .error e)
        | .ok (m₂, _) =>
          match content 16 m₂ with
          | .error e => ([r₁, r₂], .error e)
          | .ok b₂ => ([r₁, r₂], findNameMtu utf8 b₂ none none)

/-! ## The specification: netlink messages (netlink(7), rtnetlink(7)) -/

structure Msg where
  ty : Nat
  flags : Nat := 0
  seq : Nat
  pid : Nat := 0
  body : Bytes

def Msg.bytes (m : Msg) : Bytes :=
  le 4 (16 + m.body.length) ++ le 2 m.ty ++ le 2 m.flags ++ le 4 m.seq ++ le 4 m.pid ++ m.body

/-- The values fit, and errors have a code. -/
def Msg.Ok (m : Msg) : Prop :=
  16 + m.body.length < 2 ^ 32 ∧ m.ty < 2 ^ 16 ∧ m.seq < 2 ^ 32 ∧ (m.ty = 2 → 4 ≤ m.body.length)

/-- A datagram of messages that the buffer can hold. -/
def Datagram (ms : List Msg) (d : Bytes) : Prop :=
  (∀ m ∈ ms, m.Ok) ∧ d = (ms.map Msg.bytes).flatten ∧ d.length ≤ 8192

/-- The code of an error is not zero; with zero the message is an acknowledgment. -/
def Msg.fails (m : Msg) : Prop := m.ty = 2 ∧ unle (m.body.take 4) ≠ 0

/-- The message answers the request `seq`, for which an answer of type `kind` is expected. -/
def Msg.Answers (m : Msg) (seq kind : Nat) : Prop := m.seq = seq ∧ (m.ty = kind ∨ m.fails)

structure Attr where
  ty : Nat
  data : Bytes

/-- An attribute and zero to three bytes of padding. -/
def Attr.bytes (a : Attr) : Bytes :=
  le 2 (4 + a.data.length) ++ le 2 a.ty ++ a.data ++ List.replicate ((4 - a.data.length % 4) % 4) 0

def Attr.Ok (a : Attr) : Prop := 4 + a.data.length < 2 ^ 16 ∧ a.ty < 2 ^ 16

def attrs (as : List Attr) : Bytes := (as.map Attr.bytes).flatten

/-- The request for the route to an address, all bits of it: RTM_GETROUTE with a demand for an acknowledgment. -/
def routeMsg (ip : Ip) (seq : Nat) : Msg :=
  { ty := 26, flags := 5, seq := seq,
    body := [if ip.octets.length = 4 then 2 else 10, UInt8.ofNat (8 * ip.octets.length), 0, 0, 254, 0, 0, 1, 0, 0, 0, 0] ++
      attrs [⟨1, ip.octets⟩] }

/-- The request for the interface of an index: RTM_GETLINK with a demand for an acknowledgment. -/
def linkMsg (index seq : Nat) : Msg :=
  { ty := 18, flags := 5, seq := seq, body := [0, 0, 0xfe, 0xff] ++ le 4 index ++ [0, 0, 0, 0, 0, 0, 0, 0] }

/-! ## Lemmas -/

theorem le_len : ∀ {k v : Nat}, (le k v).length = k
  | 0, _ => rfl
  | k + 1, v => by simp [le, le_len]

theorem unle_le : ∀ {k v : Nat}, v < 256 ^ k → unle (le k v) = v
  | 0, v, h => by simp at h; simp [le, unle, h]
  | k + 1, v, h => by
    have h1 : v / 256 < 256 ^ k := by
      rw [Nat.pow_succ] at h
      omega
    simp only [le, unle, unle_le h1, UInt8.toNat_ofNat']
    omega

theorem take_le {k v : Nat} {r : Bytes} : (le k v ++ r).take k = le k v := by
  rw [List.take_append_of_le_length (by rw [le_len]; omega), List.take_of_length_le (by rw [le_len]; omega)]

theorem drop_le {k v : Nat} {r : Bytes} : (le k v ++ r).drop k = r := by
  conv => lhs; rw [show k = (le k v).length from le_len.symm]
  rw [le_len]
  exact List.drop_left' le_len

theorem aligned_eq {n : Nat} (h : 4 ≤ n) : aligned n = n + (4 - n % 4) % 4 := by
  unfold aligned
  rw [if_neg (by omega)]
  have h1 : (n - 1) ||| 3 = (n - 1) / 4 * 4 + 3 := by
    apply Nat.eq_of_testBit_eq
    intro i
    rw [Nat.testBit_or, show (n - 1) / 4 * 4 + 3 = 2 ^ 2 * ((n - 1) / 4) + 3 by omega,
      Nat.testBit_two_pow_mul_add _ (by decide)]
    by_cases hi : i < 2
    · rw [if_pos hi]
      have : i = 0 ∨ i = 1 := by omega
      have t0 : Nat.testBit 3 0 = true := by decide
      have t1 : Nat.testBit 3 1 = true := by decide
      rcases this with rfl | rfl <;> simp [t0, t1]
    · rw [if_neg hi]
      have h3 : Nat.testBit 3 i = false := by
        apply Nat.testBit_lt_two_pow
        calc 3 < 2 ^ 2 := by decide
          _ ≤ 2 ^ i := Nat.pow_le_pow_right (by decide) (by omega)
      rw [h3, Bool.or_false, show 4 = 2 ^ 2 from rfl, Nat.testBit_div_two_pow]
      congr 1
      omega
  rw [h1]
  omega

theorem msg_len {m : Msg} : m.bytes.length = 16 + m.body.length := by
  simp only [Msg.bytes, List.length_append, le_len]

theorem msg_fields {m : Msg} {r : Bytes} (h : m.Ok) :
    unle ((m.bytes ++ r).take 4) = 16 + m.body.length ∧ unle (((m.bytes ++ r).drop 4).take 2) = m.ty ∧
      unle (((m.bytes ++ r).drop 8).take 4) = m.seq ∧ ((m.bytes ++ r).take (16 + m.body.length)).drop 16 = m.body ∧
      (m.bytes ++ r).drop (16 + m.body.length) = r := by
  obtain ⟨h1, h2, h3, -⟩ := h
  have e8 : (m.bytes ++ r).drop 8 = le 4 m.seq ++ (le 4 m.pid ++ (m.body ++ r)) := by
    unfold Msg.bytes
    simp only [List.append_assoc]
    rw [show 8 = 4 + (2 + 2) from rfl, ← List.drop_drop, drop_le, ← List.drop_drop, drop_le, drop_le]
  refine ⟨?_, ?_, ?_, ?_, ?_⟩
  · unfold Msg.bytes
    simp only [List.append_assoc]
    rw [take_le, unle_le (by omega)]
  · unfold Msg.bytes
    simp only [List.append_assoc]
    rw [drop_le, take_le, unle_le (by omega)]
  · rw [e8, take_le, unle_le (by omega)]
  · rw [List.take_left' msg_len]
    have : m.bytes.drop 8 = le 4 m.seq ++ (le 4 m.pid ++ m.body) := by
      unfold Msg.bytes
      simp only [List.append_assoc]
      rw [show 8 = 4 + (2 + 2) from rfl, ← List.drop_drop, drop_le, ← List.drop_drop, drop_le, drop_le]
    rw [show 16 = 8 + (4 + 4) from rfl, ← List.drop_drop, this, ← List.drop_drop, drop_le, drop_le]
  · exact List.drop_left' msg_len

theorem cInt_zero {b : Bytes} (h : 4 ≤ b.length) : ∃ i, cInt b = .ok i ∧ (i = 0 ↔ unle (b.take 4) = 0) := by
  unfold cInt
  rw [if_neg (by omega)]
  refine ⟨_, rfl, ?_⟩
  have hb : unle (b.take 4) < 2 ^ 32 := by
    match b, h with
    | a :: b :: c :: d :: r, _ =>
      simp only [List.take_succ_cons, List.take_zero, unle]
      have := a.toNat_lt; have := b.toNat_lt; have := c.toNat_lt; have := d.toNat_lt
      omega
  split <;> omega

/-- One message of a read. -/
theorem scan_cons {seq kind : Nat} {m : Msg} {r : Bytes} (h : m.Ok) :
    scan seq kind (m.bytes ++ r) =
      if m.seq ≠ seq then scan seq kind r
      else if m.ty = 2 then
        match cInt m.body with
        | .error e => .error e
        | .ok e => if e ≠ 0 then .error (.os (-e)) else scan seq kind r
      else if m.ty = kind then .ok (some m.body)
      else scan seq kind r := by
  obtain ⟨h1, h2, h3, h4, h5⟩ := msg_fields (r := r) h
  conv => lhs; rw [scan]
  rw [dif_pos (by rw [List.length_append, msg_len]; omega)]
  dsimp only
  rw [h1, dif_neg (by omega), if_neg (by rw [List.length_append, msg_len]; omega), h2, h3, h4, h5]
  rfl

theorem scan_nil {seq kind : Nat} : scan seq kind [] = .ok none := by
  rw [scan, dif_neg (by simp)]

theorem scan_skip {seq kind : Nat} {m : Msg} {r : Bytes} (h : m.Ok) (hn : ¬ m.Answers seq kind) :
    scan seq kind (m.bytes ++ r) = scan seq kind r := by
  rw [scan_cons h]
  by_cases hs : m.seq = seq
  · rw [if_neg (by simpa using hs)]
    by_cases ht : m.ty = 2
    · rw [if_pos ht]
      obtain ⟨i, e1, e2⟩ := cInt_zero (h.2.2.2 ht)
      rw [e1]
      have : i = 0 := by
        rw [e2]
        by_cases hz : unle (m.body.take 4) = 0
        · exact hz
        · exact absurd ⟨hs, .inr ⟨ht, hz⟩⟩ hn
      simp [this]
    · rw [if_neg ht, if_neg (fun hk => hn ⟨hs, .inl hk⟩)]
  · rw [if_pos hs]

theorem scan_group {seq kind : Nat} : ∀ {ms : List Msg}, (∀ m ∈ ms, m.Ok) → (∀ m ∈ ms, ¬ m.Answers seq kind) → ∀ {r : Bytes},
    scan seq kind ((ms.map Msg.bytes).flatten ++ r) = scan seq kind r
  | [], _, _, r => rfl
  | m :: ms, h1, h2, r => by
    rw [List.map_cons, List.flatten_cons, List.append_assoc, scan_skip (h1 m (.head _)) (h2 m (.head _))]
    exact scan_group (fun x hx => h1 x (.tail _ hx)) (fun x hx => h2 x (.tail _ hx))

theorem read_skip {seq kind : Nat} {ms : List Msg} {d : Bytes} {ds : List Bytes} (hd : Datagram ms d)
    (hn : ∀ m ∈ ms, ¬ m.Answers seq kind) : read seq kind (d :: ds) = read seq kind ds := by
  obtain ⟨h1, h2, h3⟩ := hd
  rw [read, List.take_of_length_le (show d.length ≤ bufferSize from h3), h2]
  have := scan_group h1 hn (r := [])
  rw [List.append_nil, scan_nil] at this
  rw [this]

/-- A sequence of datagrams that do not answer. -/
inductive NoAnswer (seq kind : Nat) : List Bytes → Prop
  | nil : NoAnswer seq kind []
  | cons {ms : List Msg} {d : Bytes} {ds : List Bytes} : Datagram ms d → (∀ m ∈ ms, ¬ m.Answers seq kind) → NoAnswer seq kind ds →
      NoAnswer seq kind (d :: ds)

theorem read_noAnswer {seq kind : Nat} {ds r : List Bytes} (h : NoAnswer seq kind ds) :
    read seq kind (ds ++ r) = read seq kind r := by
  induction h with
  | nil => rfl
  | cons h1 h2 _ ih => rw [List.cons_append, read_skip h1 h2, ih]

theorem nextAttr_cons {a : Attr} {r : Bytes} (h : a.Ok) :
    nextAttr (a.bytes ++ r) = .ok (some (a.ty, a.data ++ List.replicate ((4 - a.data.length % 4) % 4) 0, r)) := by
  obtain ⟨h1, h2⟩ := h
  have hl : a.bytes.length = 4 + a.data.length + (4 - a.data.length % 4) % 4 := by
    simp only [Attr.bytes, List.length_append, le_len, List.length_replicate]
  have e1 : unle ((a.bytes ++ r).take 2) = 4 + a.data.length := by
    unfold Attr.bytes
    simp only [List.append_assoc]
    rw [take_le, unle_le (by omega)]
  have e2 : unle (((a.bytes ++ r).drop 2).take 2) = a.ty := by
    unfold Attr.bytes
    simp only [List.append_assoc]
    rw [drop_le, take_le, unle_le (by omega)]
  have ha : aligned (4 + a.data.length) = a.bytes.length := by
    rw [aligned_eq (by omega), hl]
    omega
  unfold nextAttr
  rw [if_pos (by rw [List.length_append]; omega)]
  dsimp only
  rw [e1, e2, ha, if_neg (by rw [List.length_append]; omega), List.take_left, List.drop_left]
  have : a.bytes.drop 4 = a.data ++ List.replicate ((4 - a.data.length % 4) % 4) 0 := by
    unfold Attr.bytes
    simp only [List.append_assoc]
    rw [show 4 = 2 + 2 from rfl, ← List.drop_drop, drop_le, drop_le]
  rw [this]

theorem cInt_le {v : Nat} {r : Bytes} (h : v < 2 ^ 31) : cInt (le 4 v ++ r) = .ok (v : Int) := by
  unfold cInt
  rw [if_neg (by rw [List.length_append, le_len]; omega), take_le, unle_le (by omega)]
  dsimp only
  rw [if_pos h]

theorem cStr_ok {utf8 : Bytes → Bool} {s r : Bytes} (h0 : (0 : UInt8) ∉ s) (hu : utf8 s = true) :
    cStr utf8 (s ++ [0] ++ r) = .ok s := by
  have : (s ++ [0] ++ r).takeWhile (· ≠ 0) = s := by
    rw [List.append_assoc, List.takeWhile_append_of_pos]
    · simp
    · intro x hx
      have : x ≠ 0 := fun e => h0 (e ▸ hx)
      simpa using this
  unfold cStr
  rw [if_pos (by simp), this, if_pos hu]

/-! ## C126 -/

/-- The answer to a request is found behind any number of datagrams and messages that do not answer it: answers to
other requests, acknowledgments and other types. An error of the kernel is told. -/
theorem C126_answer {seq kind : Nat} {pre post : List Bytes} {a z : List Msg} {m : Msg} {d : Bytes} (hk : kind ≠ 2)
    (h1 : NoAnswer seq kind pre) (h2 : Datagram (a ++ m :: z) d) (h3 : ∀ x ∈ a, ¬ x.Answers seq kind)
    (h4 : m.Answers seq kind) :
    (m.ty = kind → read seq kind (pre ++ d :: post) = .ok (m.body, post)) ∧
    (m.fails → ∃ e, e ≠ 0 ∧ cInt m.body = .ok e ∧ read seq kind (pre ++ d :: post) = .error (.os (-e))) := by
  rw [read_noAnswer h1]
  obtain ⟨g1, g2, g3⟩ := h2
  have e : scan seq kind (d.take bufferSize) = scan seq kind (m.bytes ++ (z.map Msg.bytes).flatten) := by
    rw [List.take_of_length_le (show d.length ≤ bufferSize from g3), g2, List.map_append, List.flatten_append, List.map_cons, List.flatten_cons]
    exact scan_group (fun x hx => g1 x (List.mem_append_left _ hx)) h3
  have hm := g1 m (List.mem_append_right _ (.head _))
  rw [read, e, scan_cons hm, if_neg (by simpa using h4.1)]
  constructor
  · intro ht
    rw [if_neg (by omega), if_pos ht]
  · rintro ⟨ht, hz⟩
    obtain ⟨i, k1, k2⟩ := cInt_zero (hm.2.2.2 ht)
    have hi : i ≠ 0 := fun h => hz (k2.mp h)
    refine ⟨i, hi, k1, ?_⟩
    rw [if_pos ht, k1]
    dsimp only
    rw [if_pos hi]

/-- The interface is the one of the first attribute that names one. -/
theorem C126_index {a z : List Attr} {x : Attr} {i : Nat} (h1 : ∀ y ∈ a ++ x :: z, y.Ok) (h2 : ∀ y ∈ a, y.ty ≠ RTA_OIF)
    (h3 : x.ty = RTA_OIF) (h4 : x.data = le 4 i) (h5 : i < 2 ^ 31) : findIndex (attrs (a ++ x :: z)) = .ok (i : Int) := by
  induction a with
  | nil =>
    unfold attrs
    rw [List.nil_append, List.map_cons, List.flatten_cons, findIndex]
    rw [nextAttr_cons (h1 x (.head _))]
    dsimp only
    rw [if_pos h3, h4, cInt_le h5]
  | cons y a ih =>
    have := ih (fun w hw => h1 w (.tail _ hw)) (fun w hw => h2 w (.tail _ hw))
    unfold attrs at this ⊢
    rw [List.cons_append, List.map_cons, List.flatten_cons, findIndex]
    rw [nextAttr_cons (h1 y (.head _))]
    dsimp only
    rw [if_neg (h2 y (.head _))]
    exact this

theorem nameMtu_step {utf8 : Bytes → Bool} {s : Bytes} {v : Nat} (h0 : (0 : UInt8) ∉ s) (hu : utf8 s = true) (hv : v < 2 ^ 31) :
    ∀ {as : List Attr} {n : Option Bytes} {m : Option Nat}, (∀ a ∈ as, a.Ok) →
    (∀ a ∈ as, a.ty = IFLA_IFNAME → a.data = s ++ [0]) → (∀ a ∈ as, a.ty = IFLA_MTU → a.data = le 4 v) →
    (n = some s ∨ (n = none ∧ ∃ a ∈ as, a.ty = IFLA_IFNAME)) → (m = some v ∨ (m = none ∧ ∃ a ∈ as, a.ty = IFLA_MTU)) →
    ¬ (n = some s ∧ m = some v) → findNameMtu utf8 (attrs as) n m = .ok (s, v)
  | [], n, m, _, _, _, hn, hm, hx => by
    rcases hn with hn | ⟨-, a, ha, -⟩
    · rcases hm with hm | ⟨-, a, ha, -⟩
      · exact absurd ⟨hn, hm⟩ hx
      · cases ha
    · cases ha
  | a :: as, n, m, h1, h2, h3, hn, hm, hx => by
    have ih := @nameMtu_step utf8 s v h0 hu hv as
    have g1 : ∀ a ∈ as, a.Ok := fun w hw => h1 w (.tail _ hw)
    have g2 : ∀ a ∈ as, a.ty = IFLA_IFNAME → a.data = s ++ [0] := fun w hw => h2 w (.tail _ hw)
    have g3 : ∀ a ∈ as, a.ty = IFLA_MTU → a.data = le 4 v := fun w hw => h3 w (.tail _ hw)
    have c34 : IFLA_IFNAME ≠ IFLA_MTU := by decide
    have e : attrs (a :: as) = a.bytes ++ attrs as := rfl
    rw [e, findNameMtu, nextAttr_cons (h1 a (.head _))]
    dsimp only
    by_cases t1 : a.ty = IFLA_IFNAME
    · rw [if_pos t1, h2 a (.head _) t1, cStr_ok h0 hu]
      dsimp only
      rcases hm with rfl | ⟨rfl, b, hb, tb⟩
      · rfl
      · rcases List.mem_cons.mp hb with rfl | hb
        · exact absurd (t1.symm.trans tb) c34
        · exact ih g1 g2 g3 (.inl rfl) (.inr ⟨rfl, b, hb, tb⟩) (by simp)
    · rw [if_neg t1]
      have hn' : n = some s ∨ (n = none ∧ ∃ a ∈ as, a.ty = IFLA_IFNAME) := by
        rcases hn with hn | ⟨hn, b, hb, tb⟩
        · exact .inl hn
        · rcases List.mem_cons.mp hb with rfl | hb
          · exact absurd tb t1
          · exact .inr ⟨hn, b, hb, tb⟩
      by_cases t2 : a.ty = IFLA_MTU
      · rw [if_pos t2, h3 a (.head _) t2, cInt_le hv]
        dsimp only
        rw [if_neg (by omega)]
        rcases hn' with rfl | ⟨rfl, b, hb, tb⟩
        · simp
        · exact ih g1 g2 g3 (.inr ⟨rfl, b, hb, tb⟩) (.inl (by simp)) (by simp)
      · rw [if_neg t2]
        have hm' : m = some v ∨ (m = none ∧ ∃ a ∈ as, a.ty = IFLA_MTU) := by
          rcases hm with hm | ⟨hm, b, hb, tb⟩
          · exact .inl hm
          · rcases List.mem_cons.mp hb with rfl | hb
            · exact absurd tb t2
            · exact .inr ⟨hm, b, hb, tb⟩
        have key := ih g1 g2 g3 hn' hm' hx
        rcases hn' with rfl | ⟨rfl, -⟩
        · rcases hm' with rfl | ⟨rfl, -⟩
          · exact absurd ⟨rfl, rfl⟩ hx
          · exact key
        · exact key

/-- The name and the MTU are those of the attributes, wherever they are among others. -/
theorem C126_name_mtu {utf8 : Bytes → Bool} {s : Bytes} {v : Nat} {as : List Attr} (h0 : (0 : UInt8) ∉ s)
    (hu : utf8 s = true) (hv : v < 2 ^ 31) (h1 : ∀ a ∈ as, a.Ok) (h2 : ∀ a ∈ as, a.ty = IFLA_IFNAME → a.data = s ++ [0])
    (h3 : ∀ a ∈ as, a.ty = IFLA_MTU → a.data = le 4 v) (h4 : ∃ a ∈ as, a.ty = IFLA_IFNAME) (h5 : ∃ a ∈ as, a.ty = IFLA_MTU) :
    findNameMtu utf8 (attrs as) none none = .ok (s, v) :=
  nameMtu_step h0 hu hv h1 h2 h3 (.inr ⟨rfl, h4⟩) (.inr ⟨rfl, h5⟩) (by simp)

/-- The requests are well-formed messages, with the given sequence number and a demand for an acknowledgment: for the
route to exactly the address (all bits of it), and for the interface of the index. Nothing beyond the structures is read. -/
theorem C126_requests {seq index : Nat} (ip : Ip) :
    routeRequest ip seq = some (routeMsg ip seq).bytes ∧ linkRequest index seq = some (linkMsg index seq).bytes := by
  unfold routeMsg linkMsg
  constructor
  · have hl : ip.octets.length = ip.len := by cases ip <;> simp [Ip.octets, Ip.len]
    have h16 : ip.len = 4 ∨ ip.len = 16 := by cases ip <;> simp [Ip.len]
    have h1 : unle ((routeStruct ip seq).take 4) = 16 + 12 + 4 + ip.len := by
      unfold routeStruct
      simp only [List.append_assoc]
      rw [take_le, unle_le (by omega)]
    have h2 : (routeStruct ip seq).length = 48 := by
      simp only [routeStruct, Ip.padded, List.length_append, le_len, List.length_replicate, List.length_cons, List.length_nil]
      omega
    unfold routeRequest
    dsimp only
    rw [h1, if_pos (by omega)]
    congr 1
    unfold routeStruct Ip.padded
    rw [← List.append_assoc]
    rw [List.take_left' (by
      simp only [List.length_append, le_len, List.length_cons, List.length_nil]; omega)]
    have hp : (4 - ip.octets.length % 4) % 4 = 0 := by omega
    unfold Msg.bytes attrs Attr.bytes
    simp only [List.map_cons, List.map_nil, List.flatten_cons, List.flatten_nil, List.append_nil, List.length_append, le_len,
      List.length_cons, List.length_nil, hp, List.replicate_zero, hl]
    cases ip <;> simp [Ip.len, le, Ip.family, Ip.bits]
  · have h1 : unle ((linkStruct index seq).take 4) = 32 := by
      unfold linkStruct
      simp only [List.append_assoc]
      rw [take_le, unle_le (by omega)]
    have h2 : (linkStruct index seq).length = 32 := by
      simp only [linkStruct, List.length_append, le_len, List.length_cons, List.length_nil]
    unfold linkRequest
    dsimp only
    rw [h1, if_pos (by omega), List.take_of_length_le (by omega)]
    unfold linkStruct Msg.bytes
    simp [le]

/-- All together: the kernel answers the request for the route with the index of an interface and the request for
the interface with its name and MTU, among other messages; then these are returned. What is sent are
the requests for the route to the address and for the interface of that index. -/
theorem C126_lookup {utf8 : Bytes → Bool} {ip : Ip} {s₁ s₂ i v : Nat} {name hd₁ hd₂ : Bytes} {pre₁ pre₂ post : List Bytes}
    {a₁ z₁ a₂ z₂ : List Msg} {m₁ m₂ : Msg} {d₁ d₂ : Bytes} {b₁ c₁ as : List Attr} {x : Attr}
    (p1 : NoAnswer s₁ RTM_NEWROUTE pre₁) (p2 : Datagram (a₁ ++ m₁ :: z₁) d₁) (p3 : ∀ y ∈ a₁, ¬ y.Answers s₁ RTM_NEWROUTE)
    (p4 : m₁.seq = s₁ ∧ m₁.ty = RTM_NEWROUTE) (p5 : m₁.body = hd₁ ++ attrs (b₁ ++ x :: c₁)) (p6 : hd₁.length = 12)
    (p7 : ∀ y ∈ b₁ ++ x :: c₁, y.Ok) (p8 : ∀ y ∈ b₁, y.ty ≠ RTA_OIF) (p9 : x.ty = RTA_OIF ∧ x.data = le 4 i ∧ i < 2 ^ 31)
    (q1 : NoAnswer s₂ RTM_NEWLINK pre₂) (q2 : Datagram (a₂ ++ m₂ :: z₂) d₂) (q3 : ∀ y ∈ a₂, ¬ y.Answers s₂ RTM_NEWLINK)
    (q4 : m₂.seq = s₂ ∧ m₂.ty = RTM_NEWLINK) (q5 : m₂.body = hd₂ ++ attrs as) (q6 : hd₂.length = 16) (h0 : (0 : UInt8) ∉ name)
    (hu : utf8 name = true) (hv : v < 2 ^ 31) (h1 : ∀ a ∈ as, a.Ok) (h2 : ∀ a ∈ as, a.ty = IFLA_IFNAME → a.data = name ++ [0])
    (h3 : ∀ a ∈ as, a.ty = IFLA_MTU → a.data = le 4 v) (h4 : ∃ a ∈ as, a.ty = IFLA_IFNAME) (h5 : ∃ a ∈ as, a.ty = IFLA_MTU) :
    lookup utf8 ip s₁ s₂ (pre₁ ++ d₁ :: (pre₂ ++ d₂ :: post)) =
      ([some (routeMsg ip s₁).bytes, some (linkMsg i s₂).bytes], .ok (name, v)) := by
  unfold lookup
  rw [(C126_requests (index := 0) ip).1]
  rw [(C126_answer (by decide) p1 p2 p3 ⟨p4.1, .inl p4.2⟩).1 p4.2]
  dsimp only
  rw [p5, content, if_pos (by rw [List.length_append]; omega), List.drop_left' p6]
  dsimp only
  rw [C126_index p7 p8 p9.1 p9.2.1 p9.2.2]
  dsimp only
  rw [(C126_answer (by decide) q1 q2 q3 ⟨q4.1, .inl q4.2⟩).1 q4.2]
  dsimp only
  rw [q5, content, if_pos (by rw [List.length_append]; omega), List.drop_left' q6]
  have hi : ((i : Int) % 2 ^ 32).toNat = i := by have := p9.2.2; omega
  dsimp only
  rw [C126_name_mtu h0 hu hv h1 h2 h3 h4 h5, hi, (C126_requests ip).2]

/-- A message that is longer than the buffer makes the program panic: the kernel cuts it off, and its length then goes
beyond what was read. -/
theorem C126_long_message_panics {seq kind : Nat} {m : Msg} {ds : List Bytes} (h : m.Ok) (hl : 8192 < 16 + m.body.length) :
    read seq kind (m.bytes :: ds) = .error .panic := by
  have hlen : (m.bytes.take bufferSize).length = 8192 := by
    rw [List.length_take, msg_len]
    have hb : bufferSize = 8192 := rfl
    omega
  have h1 : unle ((m.bytes.take bufferSize).take 4) = 16 + m.body.length := by
    rw [List.take_take, show min 4 bufferSize = 4 from rfl]
    have := (msg_fields (r := []) h).1
    rwa [List.append_nil] at this
  rw [read, scan, dif_pos (by omega)]
  dsimp only
  rw [h1, dif_neg (by omega), if_pos (by omega)]

/-! ### Examples -/


/-- The kernel's answers for `lo`, with an acknowledgment of the first request before the second answer. -/
def route : Msg := { ty := 24, seq := 7, body := List.replicate 12 0 ++ attrs [⟨15, le 4 254⟩, ⟨4, le 4 1⟩] }
def ack : Msg := { ty := 2, seq := 7, body := List.replicate 20 0 }
def link : Msg := { ty := 16, seq := 8, body := List.replicate 16 0 ++ attrs [⟨3, [108, 111, 0]⟩, ⟨13, le 4 1000⟩, ⟨4, le 4 65536⟩] }

example : lookup (fun _ => true) (.v4 127 0 0 1) 7 8 [route.bytes, ack.bytes, link.bytes] =
    ([some (routeMsg (.v4 127 0 0 1) 7).bytes, some (linkMsg 1 8).bytes], .ok ([108, 111], 65536)) := by
  have ok : ∀ m ∈ [route, ack, link], m.Ok := by
    intro m hm
    simp only [List.mem_cons, List.not_mem_nil, or_false] at hm
    rcases hm with rfl | rfl | rfl <;> exact ⟨by decide +kernel, by decide, by decide, by decide +kernel⟩
  refine C126_lookup (pre₁ := []) (pre₂ := [ack.bytes]) (post := []) (a₁ := []) (z₁ := []) (a₂ := []) (z₂ := []) (m₁ := route)
    (m₂ := link) (hd₁ := List.replicate 12 0) (hd₂ := List.replicate 16 0) (b₁ := [⟨15, le 4 254⟩]) (x := ⟨4, le 4 1⟩) (c₁ := [])
    (as := [⟨3, [108, 111, 0]⟩, ⟨13, le 4 1000⟩, ⟨4, le 4 65536⟩]) (i := 1) .nil ?_ (by simp) ⟨rfl, rfl⟩ rfl rfl ?_ ?_
    ⟨rfl, rfl, by decide⟩ (.cons (ms := [ack]) ?_ ?_ .nil) ?_ (by simp) ⟨rfl, rfl⟩ rfl rfl (by decide) rfl (by decide) ?_ ?_ ?_
    ⟨_, .head _, rfl⟩ ⟨_, .tail _ (.tail _ (.head _)), rfl⟩
  · exact ⟨fun m hm => by cases List.mem_singleton.mp hm; exact ok _ (.head _), by simp, by decide +kernel⟩
  · intro y hy; simp at hy; rcases hy with rfl | rfl <;> exact ⟨by decide, by decide⟩
  · intro y hy; simp at hy; rw [hy]; decide
  · exact ⟨fun m hm => by cases List.mem_singleton.mp hm; exact ok _ (.tail _ (.head _)), by simp, by decide +kernel⟩
  · intro m hm; cases List.mem_singleton.mp hm; exact fun h => absurd h.1 (by decide)
  · exact ⟨fun m hm => by cases List.mem_singleton.mp hm; exact ok _ (.tail _ (.tail _ (.head _))), by simp, by decide +kernel⟩
  · intro y hy; simp at hy; rcases hy with rfl | rfl | rfl <;> exact ⟨by decide, by decide⟩
  · intro y hy; simp at hy; rcases hy with rfl | rfl | rfl <;> decide
  · intro y hy; simp at hy; rcases hy with rfl | rfl | rfl <;> decide

end Neqo.Mtu
