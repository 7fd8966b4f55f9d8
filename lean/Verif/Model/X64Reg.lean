import Verif.Model.Rust
/-!
# at-x64: registers (`/repo/at-x64/src/reg.rs`)
-/

namespace AT.X64

/-- `at-x64/src/reg.rs:22-56` `enum Reg64`. -/
inductive Reg64 where
  | RAX | RDI | RSI | RDX | RCX | RBP | RSP | RBX
  | R8 | R9 | R10 | R11 | R12 | R13 | R14 | R15
  deriving DecidableEq, Repr

/-- `at-x64/src/reg.rs:130-164` `enum Reg32`. -/
inductive Reg32 where
  | EAX | EDI | ESI | EDX | ECX | EBP | ESP | EBX
  | R8D | R9D | R10D | R11D | R12D | R13D | R14D | R15D
  deriving DecidableEq, Repr

/-- `at-x64/src/reg.rs:221-255` `enum Reg16`. -/
inductive Reg16 where
  | AX | DI | SI | DX | CX | BP | SP | BX
  | R8W | R9W | R10W | R11W | R12W | R13W | R14W | R15W
  deriving DecidableEq, Repr

/-- `at-x64/src/reg.rs:312-346` `enum Reg8`. -/
inductive Reg8 where
  | AL | DIL | SIL | DL | CL | BPL | SPL | BL
  | R8B | R9B | R10B | R11B | R12B | R13B | R14B | R15B
  deriving DecidableEq, Repr

/-- `at-x64/src/reg.rs:3-9` `enum Reg`. -/
inductive Reg where
  | reg64 (r : Reg64)
  | reg32 (r : Reg32)
  | reg16 (r : Reg16)
  | reg8 (r : Reg8)
  deriving DecidableEq, Repr

/-- `at-x64/src/reg.rs:59-72` `Reg64::register_code`. -/
def Reg64.registerCode : Reg64 → UInt8
  | .RAX | .R8 => 0b000
  | .RCX | .R9 => 0b001
  | .RDX | .R10 => 0b010
  | .RBX | .R11 => 0b011
  | .RSP | .R12 => 0b100
  | .RBP | .R13 => 0b101
  | .RSI | .R14 => 0b110
  | .RDI | .R15 => 0b111

/-- `at-x64/src/reg.rs:74-81` `Reg64::is_extended`. -/
def Reg64.isExtended : Reg64 → Bool
  | .RAX | .RCX | .RDX | .RBX | .RSP | .RBP | .RSI | .RDI => false
  | .R8 | .R9 | .R10 | .R11 | .R12 | .R13 | .R14 | .R15 => true

/-- `at-x64/src/reg.rs:83-85` `Reg64::rex_r_bit`. -/
def Reg64.rexRBit (r : Reg64) : Bool := r.isExtended

/-- `at-x64/src/reg.rs:87-89` `Reg64::rex_b_bit`. -/
def Reg64.rexBBit (r : Reg64) : Bool := r.isExtended

/-- `at-x64/src/reg.rs:92-94` `Reg64::mode_bits`. -/
def Reg64.modeBits (_ : Reg64) : UInt8 := 0b11

/-- `at-x64/src/reg.rs:97-99` `Reg64::reg_bits`. -/
def Reg64.regBits (r : Reg64) : UInt8 := r.registerCode

/-- `at-x64/src/reg.rs:102-104` `Reg64::rm_bits`. -/
def Reg64.rmBits (r : Reg64) : UInt8 := r.registerCode

/-- `at-x64/src/reg.rs:167-186` `Reg32::to_reg64`. -/
def Reg32.toReg64 : Reg32 → Reg64
  | .EAX => .RAX
  | .EDI => .RDI
  | .ESI => .RSI
  | .EDX => .RDX
  | .ECX => .RCX
  | .EBP => .RBP
  | .ESP => .RSP
  | .EBX => .RBX
  | .R8D => .R8
  | .R9D => .R9
  | .R10D => .R10
  | .R11D => .R11
  | .R12D => .R12
  | .R13D => .R13
  | .R14D => .R14
  | .R15D => .R15

/-- `at-x64/src/reg.rs:188-190` `Reg32::register_code`. -/
def Reg32.registerCode (r : Reg32) : UInt8 := r.toReg64.registerCode

/-- `at-x64/src/reg.rs:193-195` `Reg32::is_extended`. -/
def Reg32.isExtended (r : Reg32) : Bool := r.toReg64.isExtended

/-- `at-x64/src/reg.rs:258-277` `Reg16::to_reg32`. -/
def Reg16.toReg32 : Reg16 → Reg32
  | .AX => .EAX
  | .DI => .EDI
  | .SI => .ESI
  | .DX => .EDX
  | .CX => .ECX
  | .BP => .EBP
  | .SP => .ESP
  | .BX => .EBX
  | .R8W => .R8D
  | .R9W => .R9D
  | .R10W => .R10D
  | .R11W => .R11D
  | .R12W => .R12D
  | .R13W => .R13D
  | .R14W => .R14D
  | .R15W => .R15D

/-- `at-x64/src/reg.rs:279-281` `Reg16::register_code`. -/
def Reg16.registerCode (r : Reg16) : UInt8 := r.toReg32.registerCode

/-- `at-x64/src/reg.rs:284-286` `Reg16::is_extended`. -/
def Reg16.isExtended (r : Reg16) : Bool := r.toReg32.isExtended

/-- `at-x64/src/reg.rs:107-128` `impl Display for Reg64`: the text written. -/
def Reg64.display : Reg64 → Str
  | .RAX => str% "rax"
  | .RDI => str% "rdi"
  | .RSI => str% "rsi"
  | .RDX => str% "rdx"
  | .RCX => str% "rcx"
  | .RBP => str% "rbp"
  | .RSP => str% "rsp"
  | .RBX => str% "rbx"
  | .R8 => str% "r8"
  | .R9 => str% "r9"
  | .R10 => str% "r10"
  | .R11 => str% "r11"
  | .R12 => str% "r12"
  | .R13 => str% "r13"
  | .R14 => str% "r14"
  | .R15 => str% "r15"

/-- `at-x64/src/reg.rs:198-219` `impl Display for Reg32`: the text written. -/
def Reg32.display : Reg32 → Str
  | .EAX => str% "eax"
  | .EDI => str% "edi"
  | .ESI => str% "esi"
  | .EDX => str% "edx"
  | .ECX => str% "ecx"
  | .EBP => str% "ebp"
  | .ESP => str% "esp"
  | .EBX => str% "ebx"
  | .R8D => str% "r8d"
  | .R9D => str% "r9d"
  | .R10D => str% "r10d"
  | .R11D => str% "r11d"
  | .R12D => str% "r12d"
  | .R13D => str% "r13d"
  | .R14D => str% "r14d"
  | .R15D => str% "r15d"

/-- `at-x64/src/reg.rs:289-310` `impl Display for Reg16`: the text written. -/
def Reg16.display : Reg16 → Str
  | .AX => str% "ax"
  | .DI => str% "di"
  | .SI => str% "si"
  | .DX => str% "dx"
  | .CX => str% "cx"
  | .BP => str% "bp"
  | .SP => str% "sp"
  | .BX => str% "bx"
  | .R8W => str% "r8w"
  | .R9W => str% "r9w"
  | .R10W => str% "r10w"
  | .R11W => str% "r11w"
  | .R12W => str% "r12w"
  | .R13W => str% "r13w"
  | .R14W => str% "r14w"
  | .R15W => str% "r15w"

/-- `at-x64/src/reg.rs:348-369` `impl Display for Reg8`: the text written. -/
def Reg8.display : Reg8 → Str
  | .AL => str% "al"
  | .DIL => str% "dil"
  | .SIL => str% "sil"
  | .DL => str% "dl"
  | .CL => str% "cl"
  | .BPL => str% "bpl"
  | .SPL => str% "spl"
  | .BL => str% "bl"
  | .R8B => str% "r8b"
  | .R9B => str% "r9b"
  | .R10B => str% "r10b"
  | .R11B => str% "r11b"
  | .R12B => str% "r12b"
  | .R13B => str% "r13b"
  | .R14B => str% "r14b"
  | .R15B => str% "r15b"

/-- `at-x64/src/reg.rs:11-20` `impl Display for Reg`. -/
def Reg.display : Reg → Str
  | .reg64 r => r.display
  | .reg32 r => r.display
  | .reg16 r => r.display
  | .reg8 r => r.display

end AT.X64
