import Verif.Spec.X86
import Verif.Model.X64Inst
/-!
# Specification: what an at-x64 operand or instruction value means

The intended meaning of the crate's register names, memory operands and instructions, in the terms
of `Spec/X86`.  Only the *types* of the model are used, none of its functions.
-/

namespace X86
open AT (Str)
open AT.X64 (Reg64 Reg32 Reg16 Reg8 Mem64)

/-- Hardware numbers of the 64-bit registers. -/
def num64 : Reg64 → Nat
  | .RAX => 0 | .RCX => 1 | .RDX => 2 | .RBX => 3 | .RSP => 4 | .RBP => 5 | .RSI => 6 | .RDI => 7
  | .R8 => 8 | .R9 => 9 | .R10 => 10 | .R11 => 11 | .R12 => 12 | .R13 => 13 | .R14 => 14 | .R15 => 15

/-- Hardware numbers of the 32-bit registers. -/
def num32 : Reg32 → Nat
  | .EAX => 0 | .ECX => 1 | .EDX => 2 | .EBX => 3 | .ESP => 4 | .EBP => 5 | .ESI => 6 | .EDI => 7
  | .R8D => 8 | .R9D => 9 | .R10D => 10 | .R11D => 11 | .R12D => 12 | .R13D => 13 | .R14D => 14
  | .R15D => 15

/-- Hardware numbers of the 16-bit registers. -/
def num16 : Reg16 → Nat
  | .AX => 0 | .CX => 1 | .DX => 2 | .BX => 3 | .SP => 4 | .BP => 5 | .SI => 6 | .DI => 7
  | .R8W => 8 | .R9W => 9 | .R10W => 10 | .R11W => 11 | .R12W => 12 | .R13W => 13 | .R14W => 14
  | .R15W => 15

/-- Hardware numbers of the 8-bit registers (with a REX prefix, so 4 to 7 are the low bytes). -/
def num8 : Reg8 → Nat
  | .AL => 0 | .CL => 1 | .DL => 2 | .BL => 3 | .SPL => 4 | .BPL => 5 | .SIL => 6 | .DIL => 7
  | .R8B => 8 | .R9B => 9 | .R10B => 10 | .R11B => 11 | .R12B => 12 | .R13B => 13 | .R14B => 14
  | .R15B => 15

/-- The 64-bit registers by hardware number, as Intel writes them (SDM vol. 1, 3.4.1.1). -/
def names64 : List Str :=
  [str% "rax", str% "rcx", str% "rdx", str% "rbx", str% "rsp", str% "rbp", str% "rsi", str% "rdi",
   str% "r8", str% "r9", str% "r10", str% "r11", str% "r12", str% "r13", str% "r14", str% "r15"]

/-- The 32-bit registers by hardware number. -/
def names32 : List Str :=
  [str% "eax", str% "ecx", str% "edx", str% "ebx", str% "esp", str% "ebp", str% "esi", str% "edi",
   str% "r8d", str% "r9d", str% "r10d", str% "r11d", str% "r12d", str% "r13d", str% "r14d",
   str% "r15d"]

/-- The 16-bit registers by hardware number. -/
def names16 : List Str :=
  [str% "ax", str% "cx", str% "dx", str% "bx", str% "sp", str% "bp", str% "si", str% "di",
   str% "r8w", str% "r9w", str% "r10w", str% "r11w", str% "r12w", str% "r13w", str% "r14w",
   str% "r15w"]

/-- The 8-bit registers by hardware number (`r8b`, the assemblers' spelling of Intel's `r8l`). -/
def names8 : List Str :=
  [str% "al", str% "cl", str% "dl", str% "bl", str% "spl", str% "bpl", str% "sil", str% "dil",
   str% "r8b", str% "r9b", str% "r10b", str% "r11b", str% "r12b", str% "r13b", str% "r14b",
   str% "r15b"]

/-- The name of a 64-bit register in a source file. -/
def _root_.AT.X64.Reg64.asmName (r : Reg64) : Str := names64.getD (num64 r) []

/-- The name of a 32-bit register in a source file. -/
def _root_.AT.X64.Reg32.asmName (r : Reg32) : Str := names32.getD (num32 r) []

/-- The name of a 16-bit register in a source file. -/
def _root_.AT.X64.Reg16.asmName (r : Reg16) : Str := names16.getD (num16 r) []

/-- The index part of a SIB operand: `RSP` means no index (documented at `mem.rs:17-19`). -/
def idxOf (r : Reg64) (scale : Nat) : Option (Nat × Nat) :=
  if r = .RSP then none else some (num64 r, scale)

/-- The address a `Mem64` documents (`mem.rs:3-26`): `[reg + d]`, `[rip + d]`,
`[base + d + index * 2^scale]`. Displacements are unsigned 32-bit numbers. -/
def docAddr (m : Mem64) (reg : Nat → BitVec 64) (next : BitVec 64) : BitVec 64 :=
  match m with
  | .regOffset r d => reg (num64 r) + BitVec.ofNat 64 d.toNat
  | .ripOffset d => next + BitVec.ofNat 64 d.toNat
  | .sib base d index scale =>
    (match base with | some b => reg (num64 b) | none => 0) +
    (if index = .RSP then 0 else reg (num64 index) <<< scale.toNat) + BitVec.ofNat 64 d.toNat

/-- Operands the public constructors can build (`Mem64::sib` asserts `scale <= 3`). -/
def MemOk : Mem64 → Prop
  | .sib _ _ _ scale => scale.toNat ≤ 3
  | _ => True

/-- The decoded form asked for by a memory operand, as a `MemRef` (displacement taken as the
unsigned number written). -/
def memRef : Mem64 → MemRef
  | .regOffset r d => .sib (some (num64 r)) none d.toNat
  | .ripOffset d => .rip d.toNat
  | .sib base d index scale => .sib (base.map num64) (idxOf index scale.toNat) d.toNat

/-- The instruction an at-x64 value asks for. Immediates and displacements are read as the unsigned
numbers of their Rust types. -/
def meaning : AT.X64.Inst → Inst
  | .movMemReg64 d s => .movMemReg .w64 (memRef d) (num64 s)
  | .movReg16Reg16 d s => .movRegReg .w16 (num16 d) (num16 s)
  | .movReg32Reg32 d s => .movRegReg .w32 (num32 d) (num32 s)
  | .movReg64Reg64 d s => .movRegReg .w64 (num64 d) (num64 s)
  | .movReg16Imm d i => .movRegImm .w16 (num16 d) i.toNat
  | .movReg32Imm d i => .movRegImm .w32 (num32 d) i.toNat
  | .movReg64Imm d i => .movRegImm .w64 (num64 d) i.toNat
  | .leaReg64Mem d s => .lea .w64 (num64 d) (memRef s)
  | .pushU8 i => .pushImm .w64 i.toNat
  | .pushU16 i => .pushImm .w16 i.toNat
  | .pushU32 i => .pushImm .w64 i.toNat
  | .pushReg16 r => .pushReg .w16 (num16 r)
  | .pushReg64 r => .pushReg .w64 (num64 r)
  | .popReg16 r => .popReg .w16 (num16 r)
  | .popReg64 r => .popReg .w64 (num64 r)
  | .ret => .ret
  | .syscall => .syscall

/-- Displacements for which the documented address is reachable through the encoding the crate
picks: base-register operands use one signed byte up to 256 and four signed bytes above;
operands without base register always use four signed bytes. -/
def DispFits : Mem64 → Prop
  | .regOffset _ d => d.toNat < 128 ∨ 256 < d.toNat ∧ d.toNat < 2 ^ 31
  | .ripOffset d => d.toNat < 2 ^ 31
  | .sib none d _ _ => d.toNat < 2 ^ 31
  | .sib (some _) d _ _ => d.toNat < 128 ∨ 256 < d.toNat ∧ d.toNat < 2 ^ 31

/-- The operands of the instruction are ones the public constructors can build. -/
def OperandsOk : AT.X64.Inst → Prop
  | .movMemReg64 d _ => MemOk d
  | .leaReg64Mem _ s => MemOk s
  | _ => True

/-- The memory displacement, if there is one, is representable. -/
def MemFits : AT.X64.Inst → Prop
  | .movMemReg64 d _ => DispFits d
  | .leaReg64Mem _ s => DispFits s
  | _ => True

/-- The push immediate, if there is one, is not changed by sign extension. -/
def PushFits : AT.X64.Inst → Prop
  | .pushU8 n => n.toNat < 2 ^ 7
  | .pushU16 n => n.toNat < 2 ^ 15
  | .pushU32 n => n.toNat < 2 ^ 31
  | _ => True

/-- Operand-size prefix, REX bits (W, R, X, B) and opcode bytes of each instruction, from the Intel
manual: W iff 64-bit operand size is not the default, R / X / B iff the ModRM.reg register / the SIB
index / the ModRM.rm, SIB base or opcode register is one of r8-r15. -/
structure Prefixes where
  p66 : Bool
  w : Bool
  r : Bool
  x : Bool
  b : Bool
  opcode : List UInt8

def high (n : Nat) : Bool := 8 ≤ n

/-- Does the memory operand use a high base register / a high index register? -/
def memB : Mem64 → Bool
  | .regOffset r _ => high (num64 r)
  | .ripOffset _ => false
  | .sib base _ _ _ => match base with | some b => high (num64 b) | none => false

def memX : Mem64 → Bool
  | .sib _ _ index _ => high (num64 index)
  | _ => false

def prefixes : AT.X64.Inst → Prefixes
  | .movMemReg64 d s => ⟨false, true, high (num64 s), memX d, memB d, [0x89]⟩
  | .movReg16Reg16 d s => ⟨true, false, high (num16 s), false, high (num16 d), [0x89]⟩
  | .movReg32Reg32 d s => ⟨false, false, high (num32 s), false, high (num32 d), [0x89]⟩
  | .movReg64Reg64 d s => ⟨false, true, high (num64 s), false, high (num64 d), [0x89]⟩
  | .movReg16Imm d _ => ⟨true, false, false, false, high (num16 d), [UInt8.ofNat (0xB8 + num16 d % 8)]⟩
  | .movReg32Imm d _ => ⟨false, false, false, false, high (num32 d), [UInt8.ofNat (0xB8 + num32 d % 8)]⟩
  | .movReg64Imm d _ => ⟨false, true, false, false, high (num64 d), [UInt8.ofNat (0xB8 + num64 d % 8)]⟩
  | .leaReg64Mem d s => ⟨false, true, high (num64 d), memX s, memB s, [0x8D]⟩
  | .pushU8 _ => ⟨false, false, false, false, false, [0x6A]⟩
  | .pushU16 _ => ⟨true, false, false, false, false, [0x68]⟩
  | .pushU32 _ => ⟨false, false, false, false, false, [0x68]⟩
  | .pushReg16 r => ⟨true, false, false, false, high (num16 r), [UInt8.ofNat (0x50 + num16 r % 8)]⟩
  | .pushReg64 r => ⟨false, false, false, false, high (num64 r), [UInt8.ofNat (0x50 + num64 r % 8)]⟩
  | .popReg16 r => ⟨true, false, false, false, high (num16 r), [UInt8.ofNat (0x58 + num16 r % 8)]⟩
  | .popReg64 r => ⟨false, false, false, false, high (num64 r), [UInt8.ofNat (0x58 + num64 r % 8)]⟩
  | .ret => ⟨false, false, false, false, false, [0xC3]⟩
  | .syscall => ⟨false, false, false, false, false, [0x0F, 0x05]⟩

/-- Value of a bit. -/
def bit (b : Bool) (v : Nat) : Nat := if b then v else 0

/-- The REX byte `0100WRXB`, absent when no bit is set. -/
def rexByte (w r x b : Bool) : List UInt8 :=
  if w || r || x || b then [UInt8.ofNat (0x40 + bit w 8 + bit r 4 + bit x 2 + bit b 1)] else []

end X86
