import Verif.Model.X64Encoder
/-!
# at-x64: instructions (`/repo/at-x64/src/instruction/*.rs`)
-/

namespace AT.X64
open Encoder

/-- `instruction/mov.rs:16-26` `Mov<Mem64, Reg64>`. -/
def movMemReg64 (dst : Mem64) (src : Reg64) : Res (BytesAtMost 15) := do
  let e ← Encoder.new
  let e ← (e.withRexW true).withOpcode [0x89]
  (e.withModRm src dst).encode

/-- `instruction/mov.rs:28-38` `Mov<Reg16, Reg16>`. -/
def movReg16Reg16 (dst src : Reg16) : Res (BytesAtMost 15) := do
  let e ← Encoder.new
  let e ← (e.withPrefix 0x66).withOpcode [0x89]
  (e.withModRm src dst).encode

/-- `instruction/mov.rs:40-49` `Mov<Reg32, Reg32>`. -/
def movReg32Reg32 (dst src : Reg32) : Res (BytesAtMost 15) := do
  let e ← Encoder.new
  let e ← e.withOpcode [0x89]
  (e.withModRm src dst).encode

/-- `instruction/mov.rs:51-61` `Mov<Reg64, Reg64>`. -/
def movReg64Reg64 (dst src : Reg64) : Res (BytesAtMost 15) := do
  let e ← Encoder.new
  let e ← (e.withRexW true).withOpcode [0x89]
  (e.withModRm src dst).encode

/-- `instruction/mov.rs:63-74` `Mov<Reg16, u16>`. -/
def movReg16Imm (dst : Reg16) (imm : UInt16) : Res (BytesAtMost 15) := do
  let e ← Encoder.new
  let e ← ((e.withPrefix 0x66).withRexB dst.isExtended).withOpcode [0xB8 + dst.registerCode]
  let i ← BytesAtMost.ofU16 8 imm
  (e.withImm i).encode

/-- `instruction/mov.rs:76-86` `Mov<Reg32, u32>`. -/
def movReg32Imm (dst : Reg32) (imm : UInt32) : Res (BytesAtMost 15) := do
  let e ← Encoder.new
  let e ← (e.withRexB dst.isExtended).withOpcode [0xB8 + dst.registerCode]
  let i ← BytesAtMost.ofU32 8 imm
  (e.withImm i).encode

/-- `instruction/mov.rs:88-95` `Mov<Reg32, u32>::offset_to_imm_bytes`. -/
def movReg32ImmOffset (dst : Reg32) : UInt8 := (if dst.isExtended then 1 else 0) + 1

/-- `instruction/mov.rs:97-108` `Mov<Reg64, u64>`. -/
def movReg64Imm (dst : Reg64) (imm : UInt64) : Res (BytesAtMost 15) := do
  let e ← Encoder.new
  let e ← ((e.withRexW true).withRexB dst.isExtended).withOpcode [0xB8 + dst.registerCode]
  let i ← BytesAtMost.ofU64 8 imm
  (e.withImm i).encode

/-- `instruction/mov.rs:110-115` `Mov<Reg64, u64>::offset_to_imm_bytes`. -/
def movReg64ImmOffset (_ : Reg64) : UInt8 := 1 + 1

/-- `instruction/lea.rs:11-21` `Lea<Reg64, Mem64>`. -/
def leaReg64Mem (dst : Reg64) (src : Mem64) : Res (BytesAtMost 15) := do
  let e ← Encoder.new
  let e ← (e.withRexW true).withOpcode [0x8D]
  (e.withModRm dst src).encode

/-- `instruction/push.rs:14-20` `Push<u8>`. -/
def pushU8 (imm : UInt8) : Res (BytesAtMost 15) := do
  let e ← Encoder.new
  let e ← e.withOpcode [0x6A]
  let i ← BytesAtMost.ofU8 8 imm
  (e.withImm i).encode

/-- `instruction/push.rs:22-28` `Push<u16>`. -/
def pushU16 (imm : UInt16) : Res (BytesAtMost 15) := do
  let e ← Encoder.new
  let e ← (e.withPrefix 0x66).withOpcode [0x68]
  let i ← BytesAtMost.ofU16 8 imm
  (e.withImm i).encode

/-- `instruction/push.rs:30-36` `Push<u32>`. -/
def pushU32 (imm : UInt32) : Res (BytesAtMost 15) := do
  let e ← Encoder.new
  let e ← e.withOpcode [0x68]
  let i ← BytesAtMost.ofU32 8 imm
  (e.withImm i).encode

/-- `instruction/push.rs:40-50` `Push<Reg16>`. -/
def pushReg16 (reg : Reg16) : Res (BytesAtMost 15) := do
  let e ← Encoder.new
  let e ← ((e.withPrefix 0x66).withRexB reg.isExtended).withOpcode [0x50 + reg.registerCode]
  e.encode

/-- `instruction/push.rs:52-61` `Push<Reg64>`. -/
def pushReg64 (reg : Reg64) : Res (BytesAtMost 15) := do
  let e ← Encoder.new
  let e ← (e.withRexB reg.isExtended).withOpcode [0x50 + reg.registerCode]
  e.encode

/-- `instruction/pop.rs:14-24` `Pop<Reg16>`. -/
def popReg16 (reg : Reg16) : Res (BytesAtMost 15) := do
  let e ← Encoder.new
  let e ← ((e.withPrefix 0x66).withRexB reg.isExtended).withOpcode [0x58 + reg.registerCode]
  e.encode

/-- `instruction/pop.rs:26-35` `Pop<Reg64>`. -/
def popReg64 (reg : Reg64) : Res (BytesAtMost 15) := do
  let e ← Encoder.new
  let e ← (e.withRexB reg.isExtended).withOpcode [0x58 + reg.registerCode]
  e.encode

/-- `instruction/ret.rs:11-15` `Ret`. -/
def ret : Res (BytesAtMost 15) := do
  let e ← Encoder.new
  let e ← e.withOpcode [0xc3]
  e.encode

/-- `instruction/syscall.rs:11-15` `Syscall`. -/
def syscall : Res (BytesAtMost 15) := do
  let e ← Encoder.new
  let e ← e.withOpcode [0x0f, 0x05]
  e.encode

/-- Every type implementing `trait Instruction` (`instruction/mod.rs:17-19`), with its operands. -/
inductive Inst where
  | movMemReg64 (dst : Mem64) (src : Reg64)
  | movReg16Reg16 (dst src : Reg16)
  | movReg32Reg32 (dst src : Reg32)
  | movReg64Reg64 (dst src : Reg64)
  | movReg16Imm (dst : Reg16) (imm : UInt16)
  | movReg32Imm (dst : Reg32) (imm : UInt32)
  | movReg64Imm (dst : Reg64) (imm : UInt64)
  | leaReg64Mem (dst : Reg64) (src : Mem64)
  | pushU8 (imm : UInt8)
  | pushU16 (imm : UInt16)
  | pushU32 (imm : UInt32)
  | pushReg16 (reg : Reg16)
  | pushReg64 (reg : Reg64)
  | popReg16 (reg : Reg16)
  | popReg64 (reg : Reg64)
  | ret
  | syscall
  deriving DecidableEq, Repr

/-- `Instruction::bytecode` dispatched on the instruction type. -/
def Inst.bytecode : Inst → Res (BytesAtMost 15)
  | .movMemReg64 d s => X64.movMemReg64 d s
  | .movReg16Reg16 d s => X64.movReg16Reg16 d s
  | .movReg32Reg32 d s => X64.movReg32Reg32 d s
  | .movReg64Reg64 d s => X64.movReg64Reg64 d s
  | .movReg16Imm d i => X64.movReg16Imm d i
  | .movReg32Imm d i => X64.movReg32Imm d i
  | .movReg64Imm d i => X64.movReg64Imm d i
  | .leaReg64Mem d s => X64.leaReg64Mem d s
  | .pushU8 i => X64.pushU8 i
  | .pushU16 i => X64.pushU16 i
  | .pushU32 i => X64.pushU32 i
  | .pushReg16 r => X64.pushReg16 r
  | .pushReg64 r => X64.pushReg64 r
  | .popReg16 r => X64.popReg16 r
  | .popReg64 r => X64.popReg64 r
  | .ret => X64.ret
  | .syscall => X64.syscall

end AT.X64
