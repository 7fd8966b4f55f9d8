import Verif.Spec.X86Meaning
/-!
# Specification: encoder configurations

The operands that can be given to the instruction builder, and what they ask for.
-/

namespace X86
open AT.X64 (Reg64 Reg32 Reg16 Mem64)

/-- What can be given as the ModRM.reg operand: a register, or a raw opcode extension. -/
inductive RegArg where
  | r64 (r : Reg64)
  | r32 (r : Reg32)
  | r16 (r : Reg16)
  | ext (n : UInt8)

/-- What can be given as the ModRM.rm operand. -/
inductive RmArg where
  | r64 (r : Reg64)
  | r32 (r : Reg32)
  | r16 (r : Reg16)
  | mem (m : Mem64)

/-- Number asked for in the ModRM.reg position (register number, or the raw extension). -/
def RegArg.num : RegArg → Nat
  | .r64 r => num64 r
  | .r32 r => num32 r
  | .r16 r => num16 r
  | .ext n => n.toNat

/-- REX.R is needed. -/
def RegArg.high : RegArg → Bool
  | .r64 r => X86.high (num64 r)
  | .r32 r => X86.high (num32 r)
  | .r16 r => X86.high (num16 r)
  | .ext _ => false

/-- The value fits the three bits of ModRM.reg (registers always do). -/
def RegArg.Fits : RegArg → Prop
  | .ext n => n.toNat ≤ 7
  | _ => True

/-- REX.B is needed. -/
def RmArg.b : RmArg → Bool
  | .r64 r => X86.high (num64 r)
  | .r32 r => X86.high (num32 r)
  | .r16 r => X86.high (num16 r)
  | .mem m => memB m

/-- REX.X is needed. -/
def RmArg.x : RmArg → Bool
  | .mem m => memX m
  | _ => false

/-- The SIB scale fits its two bits. -/
def RmArg.Fits : RmArg → Prop
  | .mem m => MemOk m
  | _ => True

/-- Displacement bytes of an operand with base register number `base`: none for 0 (but one for
rbp/r13), one up to 256, else four. -/
def dispBytes (base : Nat) (d : Nat) : Nat :=
  if d = 0 then (if base % 8 = 5 then 1 else 0) else if d ≤ 256 then 1 else 4

/-- Bytes of ModRM, SIB and displacement. -/
def RmArg.size : RmArg → Nat
  | .mem (.regOffset r d) => 1 + (if num64 r % 8 = 4 then 1 else 0) + dispBytes (num64 r) d.toNat
  | .mem (.ripOffset _) => 5
  | .mem (.sib none _ _ _) => 6
  | .mem (.sib (some b) d _ _) => 2 + dispBytes (num64 b) d.toNat
  | _ => 1

/-- The operand the processor sees: displacements up to 256 on a base register are sign-extended
from 8 bits, all others from 32 bits. -/
def wireDisp (d : Nat) : Int := if d ≤ 256 then signed 8 (d % 256) else signed 32 d

def wireMem : Mem64 → MemRef
  | .regOffset r d => .sib (some (num64 r)) none (wireDisp d.toNat)
  | .ripOffset d => .rip (signed 32 d.toNat)
  | .sib none d index scale => .sib none (idxOf index scale.toNat) (signed 32 d.toNat)
  | .sib (some b) d index scale => .sib (some (num64 b)) (idxOf index scale.toNat) (wireDisp d.toNat)

def RmArg.operand : RmArg → Nat ⊕ MemRef
  | .r64 r => .inl (num64 r)
  | .r32 r => .inl (num32 r)
  | .r16 r => .inl (num16 r)
  | .mem m => .inr (wireMem m)

end X86
