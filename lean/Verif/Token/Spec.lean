import Verif.Token.Model

/-!
# What tokens for address validation are for (RFC 9000 §8.1)
-/
namespace Neqo.Av.Spec
open Neqo.Codec (Bytes)
open Neqo.Av

/-- Addresses have the right number of octets. -/
def Addr.Ok (a : Addr) : Prop :=
  (match a.ip with | .v4 o => o.length = 4 | .v6 o => o.length = 16) ∧ a.port < 65536

/-- A token that a server made: in a Retry, with the connection ID that the client sent to,
or in a NEW_TOKEN frame; for whom, and when. -/
structure Issue where
  dcid : Option Bytes
  peer : Addr
  time : Nat
  deriving Repr, DecidableEq

/-- The tokens that a server makes: a connection ID in a Retry has at least 8 bytes. -/
structure Issue.Ok (a : Av) (i : Issue) : Prop where
  peer : Addr.Ok i.peer
  time : a.start ≤ i.time
  cid : ∀ d, i.dcid = some d → 8 ≤ d.length

/-- Nobody else can make tokens: what can be opened was sealed for one of `issued`. -/
def Authentic (a : Av) (c : Cipher) (issued : List Issue) : Prop :=
  ∀ aad ct pt, c.dec aad ct = some pt →
    ∃ i ∈ issued, encodeAad i.peer i.dcid.isSome = aad ∧ a.tokenData i.dcid i.time = some pt

/-- What was sealed can be opened. -/
structure Correct (c : Cipher) : Prop where
  dec : ∀ r aad pt, c.dec aad (c.enc r aad pt) = some pt
  ne : ∀ r aad pt, c.enc r aad pt ≠ []

def second : Nat := 1000000000

/-- What happens to the tokens of a client. -/
inductive CEv where
  /-- A NEW_TOKEN frame arrives. -/
  | save (t : Bytes)
  /-- A token is needed. -/
  | take
  deriving Repr, DecidableEq

/-- The state and the tokens that were handed out, from the first to the last. -/
def crun : List CEv → Client × List Bytes → Client × List Bytes
  | [], x => x
  | .save t :: es, (c, out) => crun es (c.save t, out)
  | .take :: es, (c, out) =>
    match c.take with
    | (c', none) => crun es (c', out)
    | (c', some t) => crun es (c', out ++ [t])

/-- The state of a sender and what it has written. -/
def srun : List SEv → Sender × List (Nat × Bytes) → Sender × List (Nat × Bytes)
  | [], x => x
  | e :: es, (s, out) => srun es ((s.step e).1, out ++ (s.step e).2)

/-- The tokens that a server wants to send, in order. -/
def added (es : List SEv) : List Bytes := es.filterMap fun e => match e with | .add t => some t | _ => none

/-- The sizes of NEW_TOKEN frames. -/
def room (ts : List Bytes) : Nat := (ts.map fun t => ((frame t).getD []).length).sum

end Neqo.Av.Spec
