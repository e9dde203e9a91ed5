import Verif.Qpack.Literal

/-!
# Instructions on the streams of QPACK (neqo-qpack/src/encoder_instructions.rs, decoder_instructions.rs)
-/
namespace Neqo.Qp
open Neqo.Codec

/-- `DecodedEncoderInstruction` (encoder_instructions.rs:101-122). -/
inductive EncInstr where
  | capacity (value : Nat)
  | insertStatic (index : Nat) (value : Bytes)
  | insertDynamic (index : Nat) (value : Bytes)
  | insertLiteral (name value : Bytes)
  | duplicate (index : Nat)
deriving DecidableEq, Repr

/-- `EncoderInstruction::marshal` (encoder_instructions.rs:55-81).  Those that only tests write are included. -/
def EncInstr.marshal (huff : Bool) : EncInstr → Except Err Bytes
  | .capacity v => .ok (encodeInt encoderCapacity v)
  | .insertStatic i v => (encodeLiteral huff noPrefix v).map fun b => encodeInt encoderInsertWithNameRefStatic i ++ b
  | .insertDynamic i v => (encodeLiteral huff noPrefix v).map fun b => encodeInt encoderInsertWithNameRefDynamic i ++ b
  | .insertLiteral n v =>
    match encodeLiteral huff encoderInsertWithNameLiteral n with
    | .error e => .error e
    | .ok a => (encodeLiteral huff noPrefix v).map fun b => a ++ b
  | .duplicate i => .ok (encodeInt encoderDuplicate i)

/-- The instructions that begin with an integer. -/
inductive EncKind where
  | capacity
  | duplicate
  | nameRef (isStatic : Bool)
deriving DecidableEq, Repr

/-- `EncoderInstructionReader` (encoder_instructions.rs:157-160) with its state (86-101): the state, and what is already
known of the instruction. -/
inductive EncR where
  | start
  | firstInt (k : EncKind) (r : IntR)
  | value (isStatic : Bool) (index : Nat) (r : LitR)
  | name (r : LitR)
  | second (name : Bytes) (r : LitR)
deriving DecidableEq, Repr

/-- The value of a literal with a name (encoder_instructions.rs:286-297, 300-306). -/
def EncR.readSecond (name : Bytes) (r : LitR) (bs : Bytes) : R EncR EncInstr :=
  match r.read bs with
  | .done v _ rest => .done (.insertLiteral name v) .start rest
  | .more r => .more (.second name r)
  | .fail e => .fail e

/-- The name of a literal with a name (encoder_instructions.rs:266-285). -/
def EncR.readName (r : LitR) (bs : Bytes) : R EncR EncInstr :=
  match r.read bs with
  | .done n _ rest => EncR.readSecond n LitR.fresh rest
  | .more r => .more (.name r)
  | .fail e => .fail e

/-- The value of a literal with a reference (encoder_instructions.rs:266-285, 300-306). -/
def EncR.readValue (isStatic : Bool) (index : Nat) (r : LitR) (bs : Bytes) : R EncR EncInstr :=
  match r.read bs with
  | .done v _ rest => .done (if isStatic then .insertStatic index v else .insertDynamic index v) .start rest
  | .more r => .more (.value isStatic index r)
  | .fail e => .fail e

/-- The integer (encoder_instructions.rs:246-265). -/
def EncR.readInt (k : EncKind) (r : IntR) (bs : Bytes) : R EncR EncInstr :=
  match r.read bs with
  | .more r => .more (.firstInt k r)
  | .fail e => .fail e
  | .done v _ rest =>
    match k with
    | .capacity => .done (.capacity v) .start rest
    | .duplicate => .done (.duplicate v) .start rest
    | .nameRef st => EncR.readValue st v LitR.fresh rest

/-- `decode_instruction_type` (encoder_instructions.rs:199-229), after the first byte was read. -/
def EncR.first (b : UInt8) (bs : Bytes) : R EncR EncInstr :=
  if encoderInsertWithNameRefStatic.cmp b then EncR.readInt (.nameRef true) (IntR.new b encoderInsertWithNameRefStatic.len) bs
  else if encoderInsertWithNameRefDynamic.cmp b then EncR.readInt (.nameRef false) (IntR.new b encoderInsertWithNameRefStatic.len) bs
  else if encoderInsertWithNameLiteral.cmp b then EncR.readName (LitR.new b encoderInsertWithNameLiteral.len) bs
  else if encoderCapacity.cmp b then EncR.readInt .capacity (IntR.new b encoderCapacity.len) bs
  else if encoderDuplicate.cmp b then EncR.readInt .duplicate (IntR.new b encoderCapacity.len) bs
  else .fail .panic

/-- `EncoderInstructionReader::read_instructions` (encoder_instructions.rs:236-307). -/
def EncR.read (s : EncR) (bs : Bytes) : R EncR EncInstr :=
  match s, bs with
  | .start, [] => .more .start
  | .start, b :: bs => EncR.first b bs
  | .firstInt k r, bs => EncR.readInt k r bs
  | .value st i r, bs => EncR.readValue st i r bs
  | .name r, bs => EncR.readName r bs
  | .second n r, bs => EncR.readSecond n r bs

/-- `DecoderInstruction` (decoder_instructions.rs:23-35). -/
inductive DecInstr where
  | increment (n : Nat)
  | headerAck (stream : Nat)
  | cancel (stream : Nat)
deriving DecidableEq, Repr

/-- `DecoderInstruction::marshal` (decoder_instructions.rs:54-67). -/
def DecInstr.marshal : DecInstr → Bytes
  | .increment n => encodeInt decoderInsertCountIncrement n
  | .headerAck s => encodeInt decoderHeaderAck s
  | .cancel s => encodeInt decoderStreamCancellation s

/-- `DecoderInstruction::get_instruction` (decoder_instructions.rs:38-52): what the integer is for. -/
inductive DecKind where
  | increment
  | headerAck
  | cancel
deriving DecidableEq, Repr

/-- An instruction with its integer (decoder_instructions.rs:112-136). -/
def DecKind.make (n : Nat) : DecKind → DecInstr
  | .increment => .increment n
  | .headerAck => .headerAck n
  | .cancel => .cancel n

/-- `DecoderInstructionReader` (decoder_instructions.rs:80-83). -/
inductive DecR where
  | start
  | int (k : DecKind) (r : IntR)
deriving DecidableEq, Repr

/-- The integer (decoder_instructions.rs:112-136). -/
def DecR.readInt (k : DecKind) (r : IntR) (bs : Bytes) : R DecR DecInstr :=
  match r.read bs with
  | .more r => .more (.int k r)
  | .fail e => .fail e
  | .done v _ rest => .done (k.make v) .start rest

/-- The first byte (decoder_instructions.rs:97-111). -/
def DecR.first (b : UInt8) (bs : Bytes) : R DecR DecInstr :=
  if decoderHeaderAck.cmp b then DecR.readInt .headerAck (IntR.new b decoderHeaderAck.len) bs
  else if decoderStreamCancellation.cmp b then DecR.readInt .cancel (IntR.new b decoderStreamCancellation.len) bs
  else if decoderInsertCountIncrement.cmp b then DecR.readInt .increment (IntR.new b decoderInsertCountIncrement.len) bs
  else .fail .panic

/-- `DecoderInstructionReader::read_instructions` (decoder_instructions.rs:97-143). -/
def DecR.read (s : DecR) (bs : Bytes) : R DecR DecInstr :=
  match s, bs with
  | .start, [] => .more .start
  | .start, b :: bs => DecR.first b bs
  | .int k r, bs => DecR.readInt k r bs

/-- The loops `Decoder::process_instructions` (decoder.rs:94-102) and `Encoder::read_instructions`
(encoder.rs:138-153): instructions are carried out as they are read, until there is no complete one.  The number
bounds the rounds: every instruction takes at least one byte. -/
def drive {σ ι τ : Type} (read : σ → Bytes → R σ ι) (exec : τ → ι → Except Err τ) : Nat → τ → σ → Bytes → Except Err (τ × σ)
  | 0, _, _, _ => .error .panic
  | n + 1, t, s, bs =>
    match read s bs with
    | .more s => .ok (t, s)
    | .fail e => .error e
    | .done i s rest =>
      match exec t i with
      | .error e => .error e
      | .ok t => drive read exec n t s rest

/-- The loop with enough rounds. -/
def process {σ ι τ : Type} (read : σ → Bytes → R σ ι) (exec : τ → ι → Except Err τ) (t : τ) (s : σ) (bs : Bytes) :
    Except Err (τ × σ) := drive read exec (bs.length + 2) t s bs

end Neqo.Qp
