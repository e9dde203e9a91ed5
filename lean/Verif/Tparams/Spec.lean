import Verif.Tparams.Model
import Verif.Frames.Spec

/-!
# What transport parameters look like (RFC 9000, section 18, and extensions)

This file describes the bytes and the values without reference to the reader.  `IsVar` and `Field` are
from `Verif.Frames.Spec`.
-/
namespace Neqo.Tp
open Neqo.Codec
open Neqo.Frm (IsVar Field)

/-- A sequence of parameters: each is its id, an integer of variable length, and its content, after its
length. -/
def Raw : List (Nat × Bytes) → Bytes → Prop
  | [], b => b = []
  | (i, c) :: ps, b => ∃ x y z, IsVar i x ∧ (Field.counted c).Is y ∧ Raw ps z ∧ b = x ++ y ++ z

/-- The parameters that only servers send (RFC 9000, section 18.2). -/
def serverOnly : PId → Prop
  | .originalDestinationCid | .statelessResetToken | .preferredAddress | .retrySourceCid => True
  | _ => False

/-- An address: absent, or with a port and an address that are not zero. -/
def AddrValid (n : Nat) : Option (Bytes × Nat) → Prop
  | none => True
  | some (ip, port) => ip.length = n ∧ ip ≠ List.replicate n 0 ∧ 0 < port ∧ port < 65536

/-- The value that a parameter may have: RFC 9000, section 18.2, RFC 9221, RFC 9368, RFC 9287 and the
drafts on acknowledgment frequency, reliable resets and SCONE. -/
def Valid : PId → Value → Prop
  | .originalDestinationCid, .bytes _ | .initialSourceCid, .bytes _ | .retrySourceCid, .bytes _ => True
  | .statelessResetToken, .bytes b => b.length = 16
  | .idleTimeout, .int n | .initialMaxData, .int n | .initialMaxStreamDataBidiLocal, .int n
  | .initialMaxStreamDataBidiRemote, .int n | .initialMaxStreamDataUni, .int n
  | .maxDatagramFrameSize, .int n => n < 2 ^ 62
  | .maxUdpPayloadSize, .int n => 1200 ≤ n ∧ n < 2 ^ 62
  | .initialMaxStreamsBidi, .int n | .initialMaxStreamsUni, .int n => n ≤ 2 ^ 60
  | .ackDelayExponent, .int n => n ≤ 20
  | .maxAckDelay, .int n => n < 2 ^ 14
  | .activeConnectionIdLimit, .int n => 2 ≤ n ∧ n < 2 ^ 62
  | .minAckDelay, .int n => n < 2 ^ 24
  | .disableMigration, .empty | .resetStreamAt, .empty | .scone, .empty | .greaseQuicBit, .empty => True
  | .preferredAddress, .preferred v4 v6 cid srt =>
    AddrValid 4 v4 ∧ AddrValid 16 v6 ∧ (v4 ≠ none ∨ v6 ≠ none) ∧ 1 ≤ cid.length ∧ cid.length ≤ 20 ∧ srt.length = 16
  | .versionInformation, .versions current other =>
    ∀ v ∈ current :: other, 0 < v ∧ v < 2 ^ 32
  | _, _ => False

/-- An address and its port, zero if absent. -/
def AddrIs (n : Nat) : Option (Bytes × Nat) → Bytes → Prop
  | none, b => b = List.replicate (n + 2) 0
  | some (ip, port), b => ∃ p : Bytes, p.length = 2 ∧ beVal p = port ∧ b = ip ++ p

/-- Integers of four bytes. -/
def WordsIs : List Nat → Bytes → Prop
  | [], b => b = []
  | v :: vs, b => ∃ x y : Bytes, x.length = 4 ∧ beVal x = v ∧ WordsIs vs y ∧ b = x ++ y

/-- The content of a parameter with a value. -/
def Content : Value → Bytes → Prop
  | .bytes x, b => b = x
  | .int n, b => IsVar n b
  | .empty, b => b = []
  | .preferred v4 v6 cid srt, b => ∃ x y z, AddrIs 4 v4 x ∧ AddrIs 16 v6 y ∧ (Field.short cid).Is z ∧ b = x ++ y ++ z ++ srt
  | .versions current other, b => WordsIs (current :: other) b

/-- The content is short enough for its length to be written. -/
def Value.Short : Value → Prop
  | .bytes b => b.length < 2 ^ 62
  | .versions _ other => 4 * (other.length + 1) < 2 ^ 62
  | _ => True

/-- `b` is a sequence of parameters with the values `p`, that may be sent to `role`: every known
parameter occurs at most once, is one that may be sent to `role`, and has a valid value.  Others are
ignored. -/
def Describes (role : Role) (p : Params) (b : Bytes) : Prop :=
  ∃ ps, Raw ps b ∧
    (∀ i c, (PId.code i, c) ∈ ps → ∃ v, p i = some v ∧ Valid i v ∧ Content v c ∧ (serverOnly i → role = .client)) ∧
    (∀ i, (ps.filter (fun x => decide (x.1 = PId.code i))).length = if (p i).isSome then 1 else 0)

/-- The value of an integer parameter, with the value that its absence means (RFC 9000, section 18.2;
RFC 9221). -/
def IntegerIs (p : Params) (i : PId) (n : Nat) : Prop :=
  p i = some (.int n) ∨ (p i = none ∧
    ((i ∈ [.idleTimeout, .initialMaxData, .initialMaxStreamDataBidiLocal, .initialMaxStreamDataBidiRemote,
        .initialMaxStreamDataUni, .initialMaxStreamsBidi, .initialMaxStreamsUni, .minAckDelay, .maxDatagramFrameSize]
        ∧ n = 0) ∨
      (i = .maxUdpPayloadSize ∧ n = 65527) ∨ (i = .ackDelayExponent ∧ n = 3) ∨ (i = .maxAckDelay ∧ n = 25) ∨
      (i = .activeConnectionIdLimit ∧ n = 2)))

/-- The limits that a server must not reduce when it accepts 0-RTT (RFC 9000, section 7.4.1, and RFC 9221,
section 3). -/
def limits0rtt : List PId :=
  [.activeConnectionIdLimit, .initialMaxData, .initialMaxStreamDataBidiLocal, .initialMaxStreamDataBidiRemote,
    .initialMaxStreamDataUni, .initialMaxStreamsBidi, .initialMaxStreamsUni, .maxDatagramFrameSize]

end Neqo.Tp
