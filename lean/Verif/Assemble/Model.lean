import Verif.Lib.Basic

/-!
# Putting packets together into datagrams

Model of `Connection::output_dgram_on_path`, `write_frames`, `pad_initial` and
`output_dgram_batch_on_path` (neqo-transport/src/connection/mod.rs:2483-2988), at the level of
sizes: a packet is its header length, the bytes its frame writers produced, and the expansion of
its key.  What the frame writers (acknowledgments, path frames, CRYPTO or application data, close
frames) put in is given by a `Writers` record: any function of the space left.  So the statements
hold whatever there is to send.

Left out: the contents of frames, statistics, logging, ECN marks and tokens.
-/

namespace Neqo.Asm

/-- The errors that can come up: `Error::Internal` from `Builder::build` (packet/mod.rs:479-489) and
from an empty batch (connection/mod.rs:2759), and arithmetic underflow. -/
inductive Err where
  | internal
  | panic
  deriving DecidableEq, Repr

/-- `PacketNumberSpace` (neqo-transport/src/tracking.rs:33-40), in the order of its iterator. -/
inductive Space where
  | initial
  | handshake
  | app
  deriving DecidableEq, Repr

/-- What `select_tx_mut` (neqo-transport/src/crypto.rs:891-911) gives for a space: whether the
packet has a long header (for application data: 0-RTT keys), the expansion of the cipher and the
length of the packet number computed in `build_packet_header` (connection/mod.rs:2368-2377). -/
structure Key where
  long : Bool
  expansion : Nat
  pnLen : Nat
  deriving DecidableEq, Repr

/-- The part of the connection and of the path that assembly looks at. -/
structure Conn where
  /-- `Role::Client`. -/
  client : Bool
  /-- `State::connected()` (connected or confirmed). -/
  connected : Bool
  /-- `State::Confirmed`. -/
  confirmed : Bool
  /-- The path is the primary path. -/
  primary : Bool
  /-- `scone_enabled()`. -/
  scone : Bool
  /-- Lengths of the connection IDs and of the address validation token. -/
  dcid : Nat
  scid : Nat
  token : Nat
  /-- `profile.limit()`. -/
  limit : Nat
  /-- `path.plpmtu()`. -/
  mtu : Nat
  /-- `pmtud.probe_size()`, when `pmtud.needs_probe()`. -/
  probe : Option Nat
  /-- The keys for sending. -/
  keys : Space → Option Key
  /-- Whether a closing frame is to be sent. -/
  closing : Bool

/-- The frame writers: how many bytes each adds when given the space that is left. -/
structure Writers where
  /-- `acks.write_frame`. -/
  ack : Space → Nat → Nat
  /-- `path.write_frames`: PATH_CHALLENGE and PATH_RESPONSE, and whether it asks for padding. -/
  path : Nat → Nat × Bool
  /-- `write_appdata_frames` or `crypto.write_frame`. -/
  data : Space → Nat → Nat
  /-- Whether `maybe_probe` decides to add a PING to a packet without anything but an ACK. -/
  ping : Space → Bool
  /-- `write_closing_frames`. -/
  close : Space → Nat → Nat
  /-- Whether CRYPTO data is still queued for Initial packets afterwards. -/
  more : Bool

/-- `Encoder::varint_len` (neqo-common/src/codec.rs:438-446) of small numbers. -/
def varintLen (n : Nat) : Nat :=
  if n < 64 then 1 else if n < 16384 then 2 else if n < 1073741824 then 4 else 8

/-- `build_packet_header` (connection/mod.rs:2327-2381) with `Builder::short`, `Builder::long`,
`initial_token` and `pn` (packet/mod.rs:219-423): where the header ends, or `none` if the limit is
set to zero because it does not fit. -/
def header (c : Conn) (s : Space) (k : Key) (len limit : Nat) : Option Nat :=
  if k.long then
    if len < limit ∧ 11 + c.dcid + c.scid < limit - len then
      let l := len + 7 + c.dcid + c.scid
      let t := varintLen c.token + c.token
      if s = .initial ∧ ¬ t < limit - l then none
      else
        let l := if s = .initial then l + t else l
        if limit - l < 6 then none else some (l + 2 + min 4 k.pnLen)
    else none
  else if len < limit ∧ 5 + c.dcid < limit - len then
    let l := len + 1 + c.dcid
    if limit - l < 4 then none else some (l + min 4 k.pnLen)
  else none

/-- Where the packet number starts (`offsets.pn.start`). -/
def pnStart (k : Key) (headerEnd : Nat) : Nat := headerEnd - min 4 k.pnLen

/-- What `write_frames` leaves behind. -/
structure Wrote where
  /-- The length of the builder. -/
  len : Nat
  /-- Reported as ack-eliciting. -/
  ack : Bool
  /-- Padded to the limit. -/
  padded : Bool
  /-- Contains something other than ACK and PADDING frames and the like (what RFC 9000 calls
  ack-eliciting). -/
  elicits : Bool
  /-- Tagged as a PMTUD probe. -/
  probe : Bool
  deriving DecidableEq, Repr

/-- `SendProfile::ack_only` (recovery/mod.rs:104-106) with `ACK_ONLY_SIZE_LIMIT` of 256. -/
def ackOnly (c : Conn) : Bool := decide (c.limit < 256)

/-- `full_mtu` (connection/mod.rs:2562). -/
def fullMtu (c : Conn) : Bool := decide (c.limit = c.mtu)

/-- Whether `write_frames` makes the packet a PMTUD probe (connection/mod.rs:2581-2594). -/
def isProbe (c : Conn) (s : Space) (coalesced : Bool) : Bool :=
  c.primary && decide (s = .app) && c.connected && c.probe.isSome && !coalesced && fullMtu c

/-- The ACK part of `write_frames` (connection/mod.rs:2547-2558). -/
def afterAck (c : Conn) (w : Writers) (s : Space) (limit len : Nat) : Nat :=
  if c.primary then len + w.ack s (limit - len) else len

/-- The path frames of `write_frames` (connection/mod.rs:2560-2574): the new length, and whether
padding is enabled. -/
def afterPath (c : Conn) (w : Writers) (s : Space) (limit len : Nat) (padding : Bool) :
    Nat × Bool :=
  if s = .app ∧ c.connected = true then
    (len + (w.path (limit - len)).1, padding || (w.path (limit - len)).2)
  else (len, padding)

/-- The data frames of `write_frames` (connection/mod.rs:2581-2612). -/
def afterData (c : Conn) (w : Writers) (s : Space) (coalesced : Bool) (limit len : Nat) : Nat :=
  let l := if isProbe c s coalesced then len + 1 else len
  if c.primary then l + w.data s (limit - l) else l

/-- `write_frames` (connection/mod.rs:2534-2633) with `maybe_probe` (2483-2529). -/
def writeFrames (c : Conn) (w : Writers) (s : Space) (long coalesced padding : Bool)
    (limit len : Nat) : Wrote :=
  let a := afterAck c w s limit len
  let (p, en) := afterPath c w s limit a padding
  if ackOnly c then ⟨p, false, false, decide (a < p), false⟩
  else
    let d := afterData c w s coalesced limit p
    -- `maybe_probe`
    let l := if a < d then d else if w.ping s then d + 1 else d
    let elicits := decide (a < l)
    let padded := elicits && fullMtu c && en && !long
    ⟨if padded then max l limit else l, elicits, padded, elicits, isProbe c s coalesced⟩

/-- A packet in a datagram. -/
structure Pkt where
  space : Space
  long : Bool
  /-- Bytes of this packet. -/
  size : Nat
  /-- Reported as ack-eliciting. -/
  ack : Bool
  elicits : Bool
  /-- Tagged as a PMTUD probe. -/
  probe : Bool
  deriving DecidableEq, Repr

/-- The state of the loop over packet number spaces (connection/mod.rs:2776-2937). -/
structure St where
  /-- Bytes written. -/
  len : Nat
  pkts : List Pkt
  /-- `initial_sent`: the size of the Initial packet whose tracking is put off. -/
  initial : Option Nat
  /-- `needs_padding`. -/
  pad : Bool
  /-- Sizes handed to `loss_recovery.on_packet_sent` already. -/
  tracked : List (Space × Nat)
  /-- Spaces whose keys were discarded while sending. -/
  discarded : List Space
  /-- The loop was left with `break`. -/
  stop : Bool
  deriving DecidableEq, Repr

def St.init : St := ⟨0, [], none, false, [], [], false⟩

/-- The limit for a packet before the expansion is taken off (connection/mod.rs:2797-2814).  The
length of the SCONE indication is two. -/
def spaceLimit (c : Conn) (s : Space) : Nat :=
  match c.probe with
  | some p => p
  | none => c.limit - (if s = .initial ∧ c.scone = true then 2 else 0)

/-- What goes into the packet (connection/mod.rs:2839-2848). -/
def contents (c : Conn) (w : Writers) (s : Space) (long coalesced padding : Bool)
    (limit len : Nat) : Wrote :=
  if c.closing then ⟨len + w.close s (limit - len), false, false, false, false⟩
  else writeFrames c w s long coalesced padding limit len

/-- Which keys are discarded after a packet was sent (connection/mod.rs:2915-2924). -/
def discards (c : Conn) (s : Space) : List Space :=
  if s = .handshake then
    if c.client then [.initial] else if c.confirmed then [.handshake] else []
  else []

/-- `Builder::build` (packet/mod.rs:479-524) with `pad_for_crypto` (432-450) for ciphers without
extra padding: the size of the datagram afterwards. -/
def buildLen (k : Key) (headerEnd len : Nat) : Nat := max len (pnStart k headerEnd + 4) + k.expansion

/-- Tracking of a packet that was built (connection/mod.rs:2890-2913). -/
def track (c : Conn) (s : Space) (long : Bool) (r : Wrote) (size : Nat) (st : St) : St :=
  if r.padded then
    { st with pad := false, tracked := st.tracked ++ [(s, size)] }
  else if s = .initial ∧ (c.client = true ∨ r.ack = true) then
    { st with initial := some size, pad := true }
  else
    { st with
      pad := if long ∧ c.client = true ∧ st.initial = none then false else st.pad
      tracked := st.tracked ++ [(s, size)] }

/-- One turn of the loop over packet number spaces (connection/mod.rs:2784-2937). -/
def space (c : Conn) (w : Writers) (s : Space) (st : St) : Except Err St :=
  match c.keys s with
  | none => .ok st
  | some k =>
    let limit := spaceLimit c s - k.expansion
    let st := { st with pad := st.pad || c.probe.isSome }
    match header c s k st.len limit with
    | none => .ok { st with stop := true }
    | some h =>
      if limit < h + 2 then .ok { st with stop := true }
      else
        let r := contents c w s k.long (decide (st.len ≠ 0)) st.pad limit h
        if r.len = h then .ok st
        else if limit < r.len then .error .internal
        else
          let total := buildLen k h r.len
          let size := total - st.len
          let st := track c s k.long r size st
          .ok { st with
            len := total
            pkts := st.pkts ++ [⟨s, k.long, size, r.ack, r.elicits, r.probe⟩]
            discarded := st.discarded ++ discards c s
            stop := c.client && decide (s = .initial) && w.more }

/-- The loop over the spaces. -/
def spaces (c : Conn) (w : Writers) : List Space → St → Except Err St
  | [], st => .ok st
  | s :: rest, st =>
    if st.stop then .ok st
    else do
      let st ← space c w s st
      spaces c w rest st

/-- A datagram that is sent. -/
structure Dgram where
  pkts : List Pkt
  /-- Bytes appended after the last packet. -/
  padding : List UInt8
  /-- Sizes handed to loss recovery. -/
  tracked : List (Space × Nat)
  discarded : List Space
  deriving DecidableEq, Repr

/-- The bytes added by `pad_initial` (connection/mod.rs:2955-2987). -/
def padding (scone : Bool) (n : Nat) : List UInt8 :=
  if scone then
    if 2 ≤ n then List.replicate (n - 1) 0xc8 ++ [0x13] else List.replicate n 0xc8
  else List.replicate n 0

/-- The end of `output_dgram_on_path` (connection/mod.rs:2939-2953). -/
def finish (c : Conn) (st : St) : Option Dgram :=
  if st.len = 0 then none
  else match st.initial with
    | none => some ⟨st.pkts, [], st.tracked, st.discarded⟩
    | some size =>
      let n := if st.pad then c.limit - st.len else 0
      some ⟨st.pkts, padding c.scone n, st.tracked ++ [(.initial, size + n)], st.discarded⟩

/-- `output_dgram_on_path` (connection/mod.rs:2768-2953). -/
def output (c : Conn) (w : Writers) : Except Err (Option Dgram) := do
  let st ← spaces c w [.initial, .handshake, .app] St.init
  pure (finish c st)

/-- The number of bytes in a datagram. -/
def Dgram.len (d : Dgram) : Nat := (d.pkts.map Pkt.size).sum + d.padding.length

/-- The limit of the profile made by `Loss::send_profile` (recovery/mod.rs:1017-1048) with
`SendProfile::new_limited`, `new_paced` and `new_pto` (recovery/mod.rs:61-94).  `pto`: the probe
timer asks for packets; `wait`: the pacer asks to wait; `recovery`: recovery was just entered. -/
def profileLimit (pto : Bool) (cwnd amplification mtu : Nat) (wait recovery : Bool) : Nat :=
  if pto then mtu
  else if mtu < min cwnd amplification then
    if wait then 255 else max 255 mtu
  else if recovery then mtu
  else max 255 (min cwnd amplification)

/-! ## Batches -/

/-- The connection as seen by a batch: how the state of the connection decides the next datagram,
and how sending changes it. -/
structure World (σ : Type) where
  /-- The connection in a state; the flag says whether a closing frame is passed. -/
  conn : σ → Bool → Conn
  wr : σ → Writers
  /-- The state after a datagram. -/
  next : σ → Bool → Dgram → σ

/-- The result of a batch: the datagrams, each with the flag for the closing frame that it was
made with, in order, and the state in which each was made. -/
abbrev Batch (σ : Type) := List (σ × Bool × Dgram)

def Batch.bytes {σ : Type} (b : Batch σ) : Nat := (b.map (fun x => x.2.2.len)).sum

/-- The checks before another datagram is made (connection/mod.rs:2688-2715): whether to stop.
`mtu` is read once, before the loop; `most` is `address_family_max_mtu`. -/
def full {σ : Type} (W : World σ) (mtu most : Nat) (s : σ) (b : Batch σ) : Except Err Bool :=
  match b with
  | [] => .ok false
  | first :: _ =>
    if (W.conn s false).probe.isSome then .ok true
    else if first.2.2.len < mtu then .ok true
    else if most < b.bytes then .error .panic
    else .ok (decide (most - b.bytes < mtu))

/-- The loop of `output_dgram_batch_on_path` (connection/mod.rs:2684-2751).  The first number is
how many datagrams may still be added.  The closing frame is taken by the first datagram
(`closing_frame.take()`). -/
def batchLoop {σ : Type} (W : World σ) (mtu most : Nat) :
    Nat → σ → Bool → Batch σ → Except Err (Batch σ)
  | 0, _, _, b => .ok b
  | n + 1, s, closing, b =>
    match full W mtu most s b with
    | .error e => .error e
    | .ok true => .ok b
    | .ok false =>
      match output (W.conn s closing) (W.wr s) with
      | .error e => .error e
      | .ok none => .ok b
      | .ok (some d) =>
        match b with
        | [] => batchLoop W mtu most n (W.next s closing d) false (b ++ [(s, closing, d)])
        | first :: _ =>
          if first.2.2.len < d.len then .error .panic
          else if d.len < first.2.2.len then .ok (b ++ [(s, closing, d)])
          else batchLoop W mtu most n (W.next s closing d) false (b ++ [(s, closing, d)])

/-- `output_dgram_batch_on_path` (connection/mod.rs:2670-2763): `none` when nothing can be sent. -/
def batch {σ : Type} (W : World σ) (mtu most max : Nat) (s : σ) (closing : Bool) :
    Except Err (Option (Batch σ)) := do
  let b ← batchLoop W mtu most max s closing []
  pure (if b.isEmpty then none else some b)

end Neqo.Asm
