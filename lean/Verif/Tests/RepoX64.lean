import Verif.Model.X64Inst
import Verif.Model.AsmParseStr
/-!
# The unit tests of at-x64 and at-asm, run on the model

Each `example` is one test function of the repository with its expected values.
-/

namespace AT.Tests
open AT.X64 AT.Asm

/-- `assert_eq!(origin.bytecode().as_ref(), expected)`. -/
def gives (i : Inst) (expected : Bytes) : Bool :=
  match i.bytecode with
  | .ok b => b.asRef == expected
  | .error _ => false

/-! ## `at-x64/src/instruction/pop.rs` -/

/-- `test_pop_reg16` -/
example : gives (.popReg16 .DI) [0x66, 0x5f] ∧ gives (.popReg16 .R15W) [0x66, 0x41, 0x5f] := by decide +kernel

/-- `test_pop_reg64` -/
example : gives (.popReg64 .RDI) [0x5f] ∧ gives (.popReg64 .R15) [0x41, 0x5f] := by decide +kernel

/-! ## `at-x64/src/instruction/lea.rs` -/

/-- A `lea` whose memory operand comes from the fallible constructor `Mem64::sib`. -/
def leaSib (dst : Reg64) (m : Res Mem64) (expected : Bytes) : Bool :=
  match m with
  | .ok m => gives (.leaReg64Mem dst m) expected
  | .error _ => false

/-- `test` -/
example :
    gives (.leaReg64Mem .RAX (.mkReg .RDI)) [0x48, 0x8D, 0x07] ∧
    gives (.leaReg64Mem .RAX (.mkRegOffset .RDI 42)) [0x48, 0x8D, 0x47, 0x2A] ∧
    gives (.leaReg64Mem .RSP (.mkReg .RSP)) [0x48, 0x8D, 0x24, 0x24] ∧
    gives (.leaReg64Mem .RAX (.mkReg .RSP)) [0x48, 0x8D, 0x04, 0x24] ∧
    gives (.leaReg64Mem .RDI (.mkRipOffset 42)) [0x48, 0x8D, 0x3D, 0x2A, 0x00, 0x00, 0x00] ∧
    leaSib .RDI (Mem64.mkSib (some .RAX) 0 .RDI 1) [0x48, 0x8D, 0x3c, 0x78] ∧
    leaSib .RDI (Mem64.mkSib none 0 .RDI 1) [0x48, 0x8D, 0x3c, 0x7d, 0x00, 0x00, 0x00, 0x00] := by
  decide +kernel

/-! ## `at-x64/src/instruction/mov.rs` -/

/-- As `leaSib`, for a store. -/
def movSib (m : Res Mem64) (src : Reg64) (expected : Bytes) : Bool :=
  match m with
  | .ok m => gives (.movMemReg64 m src) expected
  | .error _ => false

/-- `test_mov_mem64_reg64` -/
example :
    gives (.movMemReg64 (.mkReg .RDI) .RAX) [0x48, 0x89, 0x07] ∧
    gives (.movMemReg64 (.mkRegOffset .RDI 42) .RAX) [0x48, 0x89, 0x47, 0x2A] ∧
    gives (.movMemReg64 (.mkRipOffset 42) .RAX) [0x48, 0x89, 0x05, 0x2A, 0x00, 0x00, 0x00] ∧
    movSib (Mem64.mkSib (some .RBP) 42 .RAX 3) .R13 [0x4C, 0x89, 0x6C, 0xC5, 0x2A] := by
  decide +kernel

/-- `test_mov_reg16_reg16` -/
example :
    gives (.movReg16Reg16 .AX .DI) [0x66, 0x89, 0xF8] ∧
    gives (.movReg16Reg16 .R9W .SP) [0x66, 0x41, 0x89, 0xE1] ∧
    gives (.movReg16Reg16 .R15W .R10W) [0x66, 0x45, 0x89, 0xD7] := by
  decide +kernel

/-- `test_mov_reg32_reg32` -/
example :
    gives (.movReg32Reg32 .EAX .ESP) [0x89, 0xe0] ∧
    gives (.movReg32Reg32 .R15D .ESP) [0x41, 0x89, 0xE7] ∧
    gives (.movReg32Reg32 .R15D .R8D) [0x45, 0x89, 0xC7] := by
  decide +kernel

/-- `test_mov_reg64_reg64` -/
example :
    gives (.movReg64Reg64 .RDI .RAX) [0x48, 0x89, 0xc7] ∧
    gives (.movReg64Reg64 .R8 .RAX) [0x49, 0x89, 0xc0] ∧
    gives (.movReg64Reg64 .R8 .R9) [0x4d, 0x89, 0xc8] := by
  decide +kernel

/-- `test_mov_reg16_imm16` -/
example :
    gives (.movReg16Imm .AX 42) [0x66, 0xB8, 0x2A, 0x00] ∧
    gives (.movReg16Imm .R9W 11) [0x66, 0x41, 0xB9, 0x0B, 0x00] := by
  decide +kernel

/-- `test_mov_reg32_imm32` -/
example :
    gives (.movReg32Imm .EDI 420) [0xBF, 0xA4, 0x01, 0x00, 0x00] ∧ 5 = movReg32ImmOffset .EDI + 4 ∧
    gives (.movReg32Imm .R15D 109) [0x41, 0xBF, 0x6D, 0x00, 0x00, 0x00] ∧
      6 = movReg32ImmOffset .R15D + 4 := by
  decide +kernel

/-- `test_mov_reg64_imm64` -/
example :
    gives (.movReg64Imm .RSP 42) [0x48, 0xBC, 0x2A, 0x00, 0x00, 0x00, 0x00, 0x00, 0x00, 0x00] ∧
      10 = movReg64ImmOffset .RSP + 8 ∧
    gives (.movReg64Imm .R14 42) [0x49, 0xBE, 0x2A, 0x00, 0x00, 0x00, 0x00, 0x00, 0x00, 0x00] ∧
      10 = movReg64ImmOffset .R14 + 8 := by
  decide +kernel

/-! ## `at-x64/src/instruction/push.rs` -/

/-- `test_push_imm8`, `test_push_imm16`, `test_push_imm32`, `test_push_reg16`, `test_push_reg64` -/
example :
    gives (.pushU8 42) [0x6A, 0x2A] ∧
    gives (.pushU16 420) [0x66, 0x68, 0xA4, 0x01] ∧
    gives (.pushU32 420) [0x68, 0xA4, 0x01, 0x00, 0x00] ∧
    gives (.pushReg16 .AX) [0x66, 0x50] ∧ gives (.pushReg16 .R10W) [0x66, 0x41, 0x52] ∧
    gives (.pushReg64 .RAX) [0x50] ∧ gives (.pushReg64 .R10) [0x41, 0x52] := by
  decide +kernel

/-! ## `at-asm/src/parsers/section.rs` -/

/-- `should_ok_some` -/
example :
    parseSectionStr (str% "section .text") = .ok .text ∧
    parseSectionStr (str% "section .data") = .ok .data ∧
    parseSectionStr (str% "section .bss") = .ok .bss := by
  decide +kernel

/-- `should_ok_none` -/
example : tryParseSection (str% "mov rax, 42") = .ok none ∧ tryParseSection (str% "hoge") = .ok none := by
  decide +kernel

/-- `should_err` -/
example : (tryParseSection (str% "section .hoge")).toOption = none ∧
    (tryParseSection (str% "section .text .data")).toOption = none := by
  decide +kernel

/-! ## `at-asm/src/parsers/data.rs` -/

/-- `should_ok` -/
example :
    tryParseData (str% "db 0x42") = .ok (some ⟨none, [0x42]⟩) ∧
    tryParseData (str% "db 0x42,42,0x11") = .ok (some ⟨none, [0x42, 42, 0x11]⟩) ∧
    tryParseData (str% "hoge db 0x42") = .ok (some ⟨some (str% "hoge"), [0x42]⟩) ∧
    tryParseData (str% "dw 0x12, 0x34") = .ok (some ⟨none, [0x12, 0x00, 0x34, 0x00]⟩) ∧
    tryParseData (str% "dd 0x12, 0x34") = .ok (some ⟨none, [0x12, 0, 0, 0, 0x34, 0, 0, 0]⟩) ∧
    tryParseData (str% "db \"Hello, World\"") = .ok (some ⟨none,
      [0x48, 0x65, 0x6c, 0x6c, 0x6f, 0x2c, 0x20, 0x57, 0x6f, 0x72, 0x6c, 0x64]⟩) ∧
    tryParseData (str% "mdb db 0x42") = .ok (some ⟨some (str% "mdb"), [0x42]⟩) ∧
    tryParseData (str% "db \"Hello\", 0x42") = .ok (some ⟨none, [0x48, 0x65, 0x6c, 0x6c, 0x6f, 0x42]⟩) ∧
    tryParseData (str% "dd \"Hello\", 0x42") = .ok (some ⟨none,
      [0x48, 0x65, 0x6c, 0x6c, 0x6f, 0, 0, 0, 0x42, 0, 0, 0]⟩) := by
  decide +kernel

/-! ## `at-asm/src/parsers/expr.rs` -/

/-- `should_parse` -/
example (bd : Build) :
    parseExprStr bd (str% "0x200000 + 4") = .ok (0x200000 + 4) ∧
    parseExprStr bd (str% "200000 - 4") = .ok (200000 - 4) ∧
    parseExprStr bd (str% "0x200 + 0x15") = .ok (0x200 + 0x15) := by
  cases bd <;> decide +kernel

/-! ## `at-asm/src/parsers/instruction/mov.rs` -/

/-- `assert_bytes` -/
def movGives (bd : Build) (s : Str) (i : Inst) : Bool :=
  match parseMov bd s, i.bytecode with
  | .ok p, .ok b => p.bytes == b
  | _, _ => false

/-- `should_parse` -/
example (bd : Build) :
    movGives bd (str% "mov eax, 42") (.movReg32Imm .EAX 42) ∧
    movGives bd (str% "mov eax, esp") (.movReg32Reg32 .EAX .ESP) ∧
    movGives bd (str% "mov cx, r8w") (.movReg16Reg16 .CX .R8W) ∧
    movGives bd (str% "mov rax, rcx") (.movReg64Reg64 .RAX .RCX) ∧
    movGives bd (str% "mov rax, 0x200004") (.movReg64Imm .RAX 0x200004) ∧
    movGives bd (str% "mov rax, 0x200000 + 4") (.movReg64Imm .RAX 0x200004) := by
  cases bd <;> decide +kernel

end AT.Tests
