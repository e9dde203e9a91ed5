import Verif.Codec.Lemmas

/-!
# Tokens for address validation

Models addr_valid.rs (neqo-transport/src).  `SelfEncrypt` is abstract: sealing takes
associated data, a plaintext and something random, and opening gives the plaintext back or
nothing.  Times are in nanoseconds.
-/
namespace Neqo.Av
open Neqo.Codec (Bytes beBytes)

/-- `TOKEN_IDENTIFIER_RETRY` (addr_valid.rs:31). -/
def idRetry : Bytes := [0x52, 0x65, 0x74, 0x72, 0x79]

/-- `TOKEN_IDENTIFIER_NEW_TOKEN` (addr_valid.rs:35). -/
def idNewToken : Bytes := [0xad, 0x9a, 0x8b, 0x8d, 0x86]

/-- `IpAddr`, by its octets. -/
inductive Ip where
  | v4 (octets : Bytes)
  | v6 (octets : Bytes)
  deriving Repr, DecidableEq

/-- `SocketAddr`. -/
structure Addr where
  ip : Ip
  port : Nat
  deriving Repr, DecidableEq

/-- `ValidateAddress` (addr_valid.rs:50-57). -/
inductive Validate where
  | never | noToken | always
  deriving Repr, DecidableEq

/-- `AddressValidationResult` (addr_valid.rs:59-64), and the panics in `validate`. -/
inductive Res where
  | pass
  | validRetry (cid : Bytes)
  | validate
  | invalid
  | panic
  deriving Repr, DecidableEq

/-- `SelfEncrypt`: `enc rand aad plaintext` and `dec aad ciphertext`. -/
structure Cipher where
  enc : Nat → Bytes → Bytes → Bytes
  dec : Bytes → Bytes → Option Bytes

/-- `AddressValidation` (addr_valid.rs:66-73). -/
structure Av where
  validation : Validate
  start : Nat
  deriving Repr, DecidableEq

/-- The part of `encode_aad` for the IP address (addr_valid.rs:95-104). -/
def Ip.bytes : Ip → Bytes
  | .v4 a => 4 :: a
  | .v6 a => 6 :: a

/-- `AddressValidation::encode_aad` (addr_valid.rs:84-108). -/
def encodeAad (peer : Addr) (retry : Bool) : Bytes :=
  (if retry then idRetry else idNewToken) ++ peer.ip.bytes ++ (if retry then beBytes 2 peer.port else [])

/-- `EXPIRATION_RETRY` and `EXPIRATION_NEW_TOKEN` (addr_valid.rs:117). -/
def expiration (retry : Bool) : Nat := if retry then 5 * 1000000000 else 24 * 60 * 60 * 1000000000

/-- When a token expires, in milliseconds after the start (addr_valid.rs:123-129); `none` if
this does not fit in 32 bits. -/
def Av.endMillis (a : Av) (retry : Bool) (now : Nat) : Option Nat :=
  let ms := (now + expiration retry - a.start) / 1000000
  if ms < 4294967296 then some ms else none

/-- The plaintext of a token (addr_valid.rs:122, 130-133). -/
def Av.tokenData (a : Av) (dcid : Option Bytes) (now : Nat) : Option Bytes :=
  (a.endMillis dcid.isSome now).map fun ms => beBytes 4 ms ++ dcid.getD []

/-- `AddressValidation::generate_token` (addr_valid.rs:110-152). -/
def Av.generate (a : Av) (c : Cipher) (dcid : Option Bytes) (peer : Addr) (now rand : Nat) : Option Bytes :=
  (a.tokenData dcid now).map fun data =>
    let aad := encodeAad peer dcid.isSome
    aad.take 5 ++ c.enc rand aad data

/-- The end of the time and the connection ID in the plaintext of a token
(addr_valid.rs:191-200). -/
def Av.unexpired (a : Av) (d : Nat) (rest : Bytes) (now : Nat) : Option Bytes :=
  if a.start + d * 1000000 < now then none else some rest

/-- `AddressValidation::decrypt_token` (addr_valid.rs:178-197). -/
def Av.decrypt (a : Av) (c : Cipher) (token : Bytes) (peer : Addr) (retry : Bool) (now : Nat) : Option Bytes :=
  match c.dec (encodeAad peer retry) token with
  | none => none
  | some data =>
    match Codec.decodeN 4 data with
    | none => none
    | some (d, rest) => a.unexpired d rest now

/-- `u8::count_ones`. -/
def ones (b : UInt8) : Nat := ((List.range 8).map fun i => if b.toNat.testBit i then 1 else 0).sum

/-- `AddressValidation::is_likely_retry` (addr_valid.rs:205-212). -/
def likelyRetry (token : Bytes) : Bool :=
  (List.zipWith (fun a b => ones (a ^^^ b)) token idRetry).sum < 5

/-- `AddressValidation::validate` (addr_valid.rs:214-282). -/
def Av.validate (a : Av) (c : Cipher) (token : Bytes) (peer : Addr) (now : Nat) : Res :=
  if token = [] then
    if a.validation = .never then .pass else .validate
  else if token.length ≤ 5 then .invalid
  else
    let retry := likelyRetry token
    match a.decrypt c (token.drop 5) peer retry now with
    | some cid =>
      if retry then
        if 8 ≤ cid.length then .validRetry cid else .panic
      else if cid = [] then
        if a.validation = .always then .validate else .pass
      else .panic
    | none =>
      if retry then .invalid
      else if a.validation = .never then .pass
      else .validate

/-! ## Tokens at the client -/

/-- `NewTokenState::Client` (addr_valid.rs:288-293), both from the oldest to the newest. -/
structure Client where
  pending : List Bytes
  old : List Bytes
  deriving Repr, DecidableEq

/-- `NewTokenState::new` (addr_valid.rs:297-305). -/
def Client.new : Client := ⟨[], []⟩

/-- `NewTokenState::take_token` (addr_valid.rs:317-329). -/
def Client.take (c : Client) : Client × Option Bytes :=
  match c.pending.getLast? with
  | none => (c, none)
  | some t =>
    let old := if c.old.length ≥ 8 then c.old.eraseIdx 0 else c.old
    ({ pending := c.pending.dropLast, old := old ++ [t] }, some t)

/-- `NewTokenState::save_token` (addr_valid.rs:333-349). -/
def Client.save (c : Client) (t : Bytes) : Client :=
  if t ∈ c.old.reverse ++ c.pending.reverse then c
  else
    let pending := if c.pending.length ≥ 4 then c.pending.eraseIdx 0 else c.pending
    { c with pending := pending ++ [t] }

/-! ## Tokens at the server -/

/-- `NewTokenFrameStatus` (addr_valid.rs:395-399). -/
structure Status where
  seqno : Nat
  token : Bytes
  needsSending : Bool
  deriving Repr, DecidableEq

/-- `NewTokenSender` (addr_valid.rs:408-414). -/
structure Sender where
  tokens : List Status
  nextSeqno : Nat
  deriving Repr, DecidableEq

/-- `NewTokenSender::send_new_token` (addr_valid.rs:418-425). -/
def Sender.add (s : Sender) (t : Bytes) : Sender :=
  { tokens := s.tokens ++ [⟨s.nextSeqno, t, true⟩], nextSeqno := s.nextSeqno + 1 }

/-- A NEW_TOKEN frame (addr_valid.rs:436-438). -/
def frame (t : Bytes) : Option Bytes := (Codec.encodeVvec t).map (0x07 :: ·)

/-- `NewTokenFrameStatus::len` (addr_valid.rs:402-404). -/
def Status.len (s : Status) : Nat := 1 + (Codec.varintLen s.token.length).getD 0 + s.token.length

/-- `NewTokenSender::write_frames` (addr_valid.rs:427-445).  `room` is what is left in the
packet; the result has the sequence numbers of the frames that were written. -/
def write : List Status → Nat → List Status × List (Nat × Bytes)
  | [], _ => ([], [])
  | t :: ts, room =>
    if t.needsSending ∧ t.len ≤ room then
      let (ts', out) := write ts (room - t.len)
      ({ t with needsSending := false } :: ts', (t.seqno, t.token) :: out)
    else
      let (ts', out) := write ts room
      (t :: ts', out)

/-- `NewTokenSender::lost` (addr_valid.rs:447-454): the first with this number. -/
def markLost : List Status → Nat → List Status
  | [], _ => []
  | t :: ts, n => if t.seqno = n then { t with needsSending := true } :: ts else t :: markLost ts n

/-- `NewTokenSender::acked` (addr_valid.rs:456-458). -/
def Sender.acked (s : Sender) (n : Nat) : Sender := { s with tokens := s.tokens.filter fun t => t.seqno ≠ n }

/-- What happens to a sender. -/
inductive SEv where
  | add (t : Bytes)
  | write (room : Nat)
  | lost (n : Nat)
  | acked (n : Nat)
  deriving Repr, DecidableEq

def Sender.step (s : Sender) : SEv → Sender × List (Nat × Bytes)
  | .add t => (s.add t, [])
  | .write room => let (ts, out) := Av.write s.tokens room; ({ s with tokens := ts }, out)
  | .lost n => ({ s with tokens := markLost s.tokens n }, [])
  | .acked n => (s.acked n, [])

end Neqo.Av
