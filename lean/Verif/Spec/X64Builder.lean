import Verif.Spec.X64EncoderSpec
/-!
# Specification: calls of the encoder's builder methods

What a sequence of builder calls asks for: of every kind of part the last call counts.
-/

namespace X86
open AT

/-- What can be given as an immediate: an array of bytes or an unsigned number. -/
inductive ImmArg where
  | array (bs : Bytes)
  | u8 (n : UInt8)
  | u16 (n : UInt16)
  | u32 (n : UInt32)
  | u64 (n : UInt64)

/-- The `k` bytes of `n`, least significant first. -/
def lowFirst (k n : Nat) : Bytes := (List.range k).map (fun i => UInt8.ofNat (n / 256 ^ i % 256))

/-- The bytes of an immediate. -/
def ImmArg.bytes : ImmArg → Bytes
  | .array bs => bs
  | .u8 n => lowFirst 1 n.toNat
  | .u16 n => lowFirst 2 n.toNat
  | .u32 n => lowFirst 4 n.toNat
  | .u64 n => lowFirst 8 n.toNat

/-- One builder call. -/
inductive Call where
  | pfx (p : UInt8)
  | rexW (w : Bool)
  | rexB (b : Bool)
  | opcode (bs : Bytes)
  | modRm (r : RegArg) (m : RmArg)
  | imm (v : ImmArg)

/-- The prefix a call sets. -/
def Call.pfx? : Call → Option UInt8
  | .pfx p => some p
  | _ => none
/-- The REX.W flag a call sets. -/
def Call.rexW? : Call → Option Bool
  | .rexW w => some w
  | _ => none
/-- The REX.B flag a call sets. -/
def Call.rexB? : Call → Option Bool
  | .rexB b => some b
  | _ => none
/-- The opcode a call sets. -/
def Call.opcode? : Call → Option Bytes
  | .opcode bs => some bs
  | _ => none
/-- The operands a call sets. -/
def Call.modRm? : Call → Option (RegArg × RmArg)
  | .modRm r m => some (r, m)
  | _ => none
/-- The immediate a call sets. -/
def Call.imm? : Call → Option Bytes
  | .imm v => some v.bytes
  | _ => none

/-- What the last of the calls that concern a part has set. -/
def lastOf {α : Type} (part : Call → Option α) (cs : List Call) : Option α :=
  (cs.filterMap part).getLast?

/-- The calls that are refused at once: opcodes of more than 3 bytes, immediates of more than 8. -/
def Call.TooLong (c : Call) : Prop :=
  (∃ bs, c.opcode? = some bs ∧ 3 < bs.length) ∨ (∃ bs, c.imm? = some bs ∧ 8 < bs.length)

end X86
