import Verif.Keys.Pn
import Verif.Lib.Basic

/-!
The keys one endpoint uses for application data (0-RTT and 1-RTT), after
neqo-transport/src/crypto.rs and `Public::decrypt` in neqo-transport/src/packet/mod.rs.

Modelled: which key protects or opens a packet, the packet numbers each key has been used for,
the invocation limits, key updates in both directions, the timer that retires old read keys and
0-RTT read keys, and the packet number checks.

Not modelled: Initial and Handshake keys; the cryptography.  A protected packet is the number of
the key (the epoch) and the packet number it was made with; opening it succeeds exactly when the
same key and number are used, and header protection is removed without loss.  Times are natural
numbers.  The epoch is a natural number, so that it cannot overflow.  `debug_assert!` counts as
a panic.
-/

namespace Neqo.Keys

/-- The errors these functions return; `panic` stands for a failed assertion. -/
inductive KErr where
  | exhausted | overlap | decrypt | noKeys | internal | blocked | panic
  deriving DecidableEq, Repr

/-- The negotiated AEAD. -/
inductive Cipher where
  | aes128 | aes256 | chacha
  deriving DecidableEq, Repr

/-- `CryptoDxDirection` (crypto.rs:457-460). -/
inductive Dir where
  | read | write
  deriving DecidableEq, Repr

/-- `CryptoDxState::limit` (crypto.rs:554-571). -/
def limit : Dir → Cipher → Nat
  | .read, .aes128 => 2 ^ 52
  | .read, .aes256 => 2 ^ 64 - 1
  | .read, .chacha => 2 ^ 36
  | .write, .aes128 => 2 ^ 28
  | .write, .aes256 => 2 ^ 28
  | .write, .chacha => 2 ^ 64 - 1

/-- `UPDATE_WRITE_KEYS_AT` (crypto.rs:62). -/
def updateWriteKeysAt : Nat := 100

/-- `INITIAL_LARGEST_PACKET_LEN` (crypto.rs:497). -/
def initialLargest : Nat := 2048

/-- `CryptoDxState` (crypto.rs:472-495).  The range `used_pn` is `start..stop`.  The secrets and
AEAD contexts are represented by the epoch alone. -/
structure Dx where
  dir : Dir
  epoch : Nat
  start : Nat
  stop : Nat
  minPn : Nat
  inv : Nat
  largest : Nat
  deriving DecidableEq, Repr

namespace Dx

/-- `CryptoDxState::new` with `min_pn = 0` (crypto.rs:500-529). -/
def new (dir : Dir) (epoch : Nat) (c : Cipher) : Dx :=
  { dir, epoch, start := 0, stop := 0, minPn := 0, inv := limit dir c, largest := initialLargest }

/-- `CryptoDxState::next` (crypto.rs:595-622). -/
def next (d : Dx) (c : Cipher) : Dx :=
  { dir := d.dir, epoch := d.epoch + 1, start := d.stop, stop := d.stop, minPn := d.stop,
    inv := if d.dir = .read then d.inv else limit .write c, largest := initialLargest }

/-- `CryptoDxState::key_phase` (crypto.rs:630-633). -/
def phase (d : Dx) : Bool := d.epoch % 2 = 0

/-- `CryptoDxState::continuation` (crypto.rs:642-660).  The receiver is changed even when the
check fails, so both results are returned. -/
def continuation (d prev : Dx) : Dx × Bool :=
  let d := { d with minPn := prev.stop }
  if d.stop ≤ d.start then ({ d with start := prev.stop, stop := prev.stop }, true)
  else if prev.stop > d.start then (d, false)
  else ({ d with start := prev.stop }, true)

/-- `CryptoDxState::used` (crypto.rs:665-678); `none` is the error `PacketNumberOverlap`. -/
def used (d : Dx) (pn : Nat) : Option Dx :=
  if pn < d.minPn then none
  else
    let d := if d.start = d.stop then { d with start := pn } else d
    some { d with stop := max (pn + 1) d.stop }

/-- `CryptoDxState::needs_update` (crypto.rs:681-686). -/
def needsUpdate (d : Dx) : Bool := d.start + 1 = d.stop ∧ d.epoch > 3

/-- `CryptoDxState::can_update` (crypto.rs:689-694). -/
def canUpdate (d : Dx) (la : Option Nat) : Bool :=
  match la with
  | none => d.epoch = 3
  | some a => d.start ≤ a ∧ a < d.stop

/-- `CryptoDxState::should_update` (crypto.rs:589-593). -/
def shouldUpdate (d : Dx) : Bool := d.inv ≤ updateWriteKeysAt

/-- `CryptoDxState::invoked` (crypto.rs:573-586); `none` is the error `KeysExhausted`. -/
def invoked (d : Dx) : Option Dx :=
  if d.inv = 0 then none else some { d with inv := d.inv - 1 }

/-- The adjustment of the limit for large packets in `encrypt` (crypto.rs:729-737). -/
def enlarge (d : Dx) (body : Nat) : Dx :=
  if body > d.largest then
    { d with
      inv := d.inv / 2 ^ (leadingZeros (d.largest - 1) - leadingZeros (body - 1)),
      largest := body }
  else d

/-- `CryptoDxState::encrypt` (crypto.rs:714-748) of a packet whose number is `next_pn()`, which is
what the connection uses (neqo-transport/src/connection/mod.rs:2368). -/
def encrypt (d : Dx) (body : Nat) : Except KErr Dx :=
  match (d.enlarge body).invoked with
  | none => .error .exhausted
  | some d =>
    match d.used d.stop with
    | none => .error .overlap
    | some d => .ok d

end Dx

/-- A protected packet as the receiver sees it: the key that made it, its number, and the number
of bytes of the number that were sent.  `epoch = 1` is a 0-RTT packet. -/
structure Wire where
  epoch : Nat
  pn : Nat
  len : Nat
  deriving DecidableEq, Repr

/-- The application data part of `CryptoStates` (crypto.rs:865-881). -/
structure K where
  cipher : Cipher
  zero : Option Dx
  write : Option Dx
  read : Option Dx
  readNext : Option Dx
  updTime : Option Nat
  updEpoch : Option Nat
  deriving DecidableEq, Repr

namespace K

/-- No keys yet. -/
def init (c : Cipher) : K :=
  { cipher := c, zero := none, write := none, read := none, readNext := none,
    updTime := none, updEpoch := none }

/-- `set_0rtt_keys` (crypto.rs:1153-1170). -/
def setZero (k : K) (d : Dir) : K := { k with zero := some (Dx.new d 1 k.cipher) }

/-- `discard_0rtt_keys` (crypto.rs:1185-1192). -/
def discardZero (k : K) : Except KErr K :=
  if k.read.isSome then .error .panic else .ok { k with zero := none }

/-- `set_application_write_key` (crypto.rs:1223-1235).  A fresh key has an empty range, so that
`continuation` cannot fail; the result is checked all the same. -/
def setWrite (k : K) : Except KErr K :=
  if k.write.isSome then .error .panic
  else
    let app := Dx.new .write 3 k.cipher
    match k.zero with
    | some z =>
      if z.dir = .write then
        if (app.continuation z).2 then
          .ok { k with write := some (app.continuation z).1, zero := none }
        else .error .overlap
      else .ok { k with write := some app, zero := none }
    | none => .ok { k with write := some app }

/-- `set_application_read_key` (crypto.rs:1237-1255). -/
def setRead (k : K) (expire : Nat) : Except KErr K :=
  if k.write.isNone ∨ k.read.isSome then .error .panic
  else
    let app := Dx.new .read 3 k.cipher
    match k.zero with
    | some z =>
      if z.dir = .read then
        if (app.continuation z).2 then
          .ok { k with read := some (app.continuation z).1, readNext := some ((app.continuation z).1.next k.cipher), updTime := some expire }
        else .error .overlap
      else .ok { k with read := some app, readNext := some (app.next k.cipher), updTime := some expire }
    | none => .ok { k with read := some app, readNext := some (app.next k.cipher) }

/-- `maybe_update_write` (crypto.rs:1280-1294). -/
def maybeUpdateWrite (k : K) : Except KErr (K × Bool) :=
  if k.updTime.isSome then .error .panic
  else
    match k.write, k.read with
    | some w, some r =>
      if w.epoch = r.epoch then .ok ({ k with write := some (w.next k.cipher) }, true)
      else .ok (k, false)
    | _, _ => .error .internal

/-- `initiate_key_update` (crypto.rs:1258-1277). -/
def initiate (k : K) (la : Option Nat) : Except KErr K :=
  match k.write with
  | none => .error .internal
  | some w =>
    if w.canUpdate la ∧ k.updTime.isNone then
      match k.maybeUpdateWrite with
      | .error e => .error e
      | .ok (k, true) => .ok k
      | .ok (_, false) => .error .blocked
    else .error .blocked

/-- `auto_update` (crypto.rs:1299-1309). -/
def autoUpdate (k : K) : Except KErr K :=
  match k.write with
  | none => .ok k
  | some w =>
    if w.shouldUpdate then
      match k.maybeUpdateWrite with
      | .error e => .error e
      | .ok (k, true) => .ok k
      | .ok (_, false) => .error .exhausted
    else .ok k

/-- `has_0rtt_read` (crypto.rs:1311-1315). -/
def hasZeroRead (k : K) : Bool :=
  match k.zero with
  | some z => z.dir = .read
  | none => false

/-- `key_update_received` (crypto.rs:1320-1346). -/
def keyUpdateReceived (k : K) (epoch expiration : Nat) : Except KErr K :=
  if k.updEpoch.any (fun e => epoch ≤ e) then .ok k
  else
    let k := { k with updEpoch := some epoch }
    match k.maybeUpdateWrite with
    | .error e => .error e
    | .ok (k, _) =>
      if k.updTime.isSome = k.hasZeroRead then
        .ok { k with zero := if k.hasZeroRead then none else k.zero, updTime := some expiration }
      else .error .panic

/-- `check_key_update` (crypto.rs:1356-1373). -/
def checkKeyUpdate (k : K) (now : Nat) : Except KErr K :=
  match k.updTime with
  | none => .ok k
  | some t =>
    if now < t then .ok k
    else if k.hasZeroRead then .ok { k with zero := none, updTime := none }
    else
      match k.readNext with
      | none => .error .internal
      | some n => .ok { k with read := some n, readNext := some (n.next k.cipher), updTime := none }

/-- `check_pn_overlap` (crypto.rs:1386-1394). -/
def checkOverlap (k : K) : K × Option KErr :=
  if k.updTime.isSome then
    match k.read, k.readNext with
    | some r, some n =>
      ({ k with readNext := some (n.continuation r).1 },
        if (n.continuation r).2 then none else some .overlap)
    | _, _ => (k, some .internal)
  else (k, none)

/-- Which of the two read keys opens a packet with this key phase bit (crypto.rs:1026-1035). -/
inductive Slot where
  | cur | nxt
  deriving DecidableEq, Repr

/-- `CryptoStates::rx` for application data (crypto.rs:1026-1035): exclusive or of the two. -/
def rx (k : K) (ph : Bool) : Option (Slot × Dx) :=
  match k.read.filter (fun d => d.phase = ph), k.readNext.filter (fun d => d.phase = ph) with
  | some d, none => some (.cur, d)
  | none, some d => some (.nxt, d)
  | _, _ => none

/-- Write back the key that was used. -/
def setRx (k : K) (s : Slot) (d : Dx) : K :=
  match s with
  | .cur => { k with read := some d }
  | .nxt => { k with readNext := some d }

/-- What happened to a received packet.  `opened` tells whether the packet was authentic and its
number one that its key may still be used with. -/
structure Outcome where
  opened : Bool
  res : Except KErr Nat
  deriving DecidableEq

/-- `CryptoDxState::decrypt` (crypto.rs:755-772) on a packet whose number was recovered as `pn`.
Counting the attempt is kept even if opening fails. -/
def openWith (d : Dx) (p : Wire) (pn : Nat) : Dx × Option KErr :=
  match d.invoked with
  | none => (d, some .exhausted)
  | some d =>
    if d.epoch = p.epoch ∧ pn = p.pn then
      match d.used pn with
      | none => (d, some .overlap)
      | some d => (d, none)
    else (d, some .decrypt)

/-- Treat the first packet opened with a key as a key update (packet/mod.rs:991-998). -/
def maybeRespond (k : K) (d : Dx) (releaseAt : Nat) : Except KErr K :=
  if d.needsUpdate then k.keyUpdateReceived d.epoch releaseAt else .ok k

/-- `Public::decrypt` of a short header packet (packet/mod.rs:929-1008), after header protection
is removed with the current read keys, whose `next_pn()` is also used to recover the number
(`rx_hp`, crypto.rs:1003-1005, packet/mod.rs:921).  The check of the reserved bits is left out. -/
def decryptShort (k : K) (p : Wire) (releaseAt : Nat) : K × Outcome :=
  match k.read with
  | none => (k, ⟨false, .error .noKeys⟩)
  | some r =>
    let pn := decodePn r.stop (truncate p.pn p.len) p.len
    match k.rx (p.epoch % 2 = 0) with
    | none => (k, ⟨false, .error .decrypt⟩)
    | some (s, d) =>
      match openWith d p pn with
      | (d, some e) => (k.setRx s d, ⟨false, .error e⟩)
      | (d, none) =>
        match (k.setRx s d).maybeRespond d releaseAt with
        | .error e => (k.setRx s d, ⟨true, .error e⟩)
        | .ok k =>
          match k.checkOverlap with
          | (k, some e) => (k, ⟨true, .error e⟩)
          | (k, none) => (k, ⟨true, .ok pn⟩)

/-- `Public::decrypt` of a 0-RTT packet (packet/mod.rs:929-1008, crypto.rs:1008, 1018-1021). -/
def decryptZero (k : K) (p : Wire) : K × Outcome :=
  match k.zero.filter (fun z => z.dir = .read) with
  | none => (k, ⟨false, .error .noKeys⟩)
  | some z =>
    let pn := decodePn z.stop (truncate p.pn p.len) p.len
    match openWith z p pn with
    | (z, some e) => ({ k with zero := some z }, ⟨false, .error e⟩)
    | (z, none) =>
      match K.checkOverlap { k with zero := some z } with
      | (k, some e) => (k, ⟨true, .error e⟩)
      | (k, none) => (k, ⟨true, .ok pn⟩)

/-- Receive a packet. -/
def decrypt (k : K) (p : Wire) (releaseAt : Nat) : K × Outcome :=
  if p.epoch = 1 then k.decryptZero p else k.decryptShort p releaseAt

/-- Protect a packet with the best keys there are (`select_tx_mut`, crypto.rs:903-909; 0-RTT read
keys cannot be used, crypto.rs:921-924) and update the keys if they are running out
(neqo-transport/src/connection/mod.rs:2880-2886).  Gives the epoch and number used. -/
def send (k : K) (body : Nat) : Except KErr (K × Nat × Nat) :=
  match k.write with
  | some w =>
    match w.encrypt body with
    | .error e => .error e
    | .ok w' =>
      match K.autoUpdate { k with write := some w' } with
      | .error e => .error e
      | .ok k => .ok (k, w.epoch, w.stop)
  | none =>
    match k.zero.filter (fun z => z.dir = .write) with
    | none => .error .noKeys
    | some z =>
      match z.encrypt body with
      | .error e => .error e
      | .ok z' => .ok ({ k with zero := some z' }, z.epoch, z.stop)

end K

end Neqo.Keys
