import Verif.Spec.X86Meaning
/-!
# Specification: the machine code of each instruction

Byte for byte, from the formats of the Intel manual (vol. 2, 2.1 and the opcode tables), for the form
of each instruction that at-x64 uses.
-/

namespace X86
open AT.X64 (Mem64)

/-- The low `k` bytes of `n`, least significant first. -/
def le (k n : Nat) : List UInt8 := (List.range k).map fun j => UInt8.ofNat (n / 256 ^ j % 256)

/-- A ModRM or SIB byte: two bits and two three-bit fields. -/
def fields233 (a b c : Nat) : UInt8 := UInt8.ofNat (64 * a + 8 * (b % 8) + c % 8)

/-- ModRM.mod for the displacement `d` on the base register `base`: no displacement bytes for 0 (but
one for rbp and r13), one byte up to 256, else four. -/
def dispMod (base d : Nat) : Nat :=
  if d = 0 then (if base % 8 = 5 then 1 else 0) else if d ≤ 256 then 1 else 2

/-- The displacement bytes. -/
def dispCode (base d : Nat) : List UInt8 :=
  if d = 0 then (if base % 8 = 5 then [0] else []) else if d ≤ 256 then le 1 d else le 4 d

/-- ModRM, SIB and displacement of a memory operand; `reg` goes to ModRM.reg. -/
def memCode (reg : Nat) : Mem64 → List UInt8
  | .regOffset r d => fields233 (dispMod (num64 r) d.toNat) reg (num64 r) ::
      ((if num64 r % 8 = 4 then [fields233 0 4 4] else []) ++ dispCode (num64 r) d.toNat)
  | .ripOffset d => fields233 0 reg 5 :: le 4 d.toNat
  | .sib none d i s => fields233 0 reg 4 :: fields233 s.toNat (num64 i) 5 :: le 4 d.toNat
  | .sib (some b) d i s => fields233 (dispMod (num64 b) d.toNat) reg 4 ::
      fields233 s.toNat (num64 i) (num64 b) :: dispCode (num64 b) d.toNat

/-- What follows the opcode: ModRM, SIB, displacement and immediate. -/
def operandCode : AT.X64.Inst → List UInt8
  | .movMemReg64 d s => memCode (num64 s) d
  | .movReg16Reg16 d s => [fields233 3 (num16 s) (num16 d)]
  | .movReg32Reg32 d s => [fields233 3 (num32 s) (num32 d)]
  | .movReg64Reg64 d s => [fields233 3 (num64 s) (num64 d)]
  | .movReg16Imm _ i => le 2 i.toNat
  | .movReg32Imm _ i => le 4 i.toNat
  | .movReg64Imm _ i => le 8 i.toNat
  | .leaReg64Mem d s => memCode (num64 d) s
  | .pushU8 i => le 1 i.toNat
  | .pushU16 i => le 2 i.toNat
  | .pushU32 i => le 4 i.toNat
  | .pushReg16 _ | .pushReg64 _ | .popReg16 _ | .popReg64 _ | .ret | .syscall => []

/-- The machine code of an instruction. -/
def machineCode (i : AT.X64.Inst) : List UInt8 :=
  (if (prefixes i).p66 then [0x66] else []) ++
    rexByte (prefixes i).w (prefixes i).r (prefixes i).x (prefixes i).b ++ (prefixes i).opcode ++ operandCode i

end X86
