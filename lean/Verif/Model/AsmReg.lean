import Verif.Model.X64Reg
/-!
# at-asm: register names (`/repo/at-asm/src/parsers/reg.rs`)

`try_parse_str` never returns `Err`, so it is modelled as an `Option`.
-/

namespace AT.Asm
open AT.X64

/-- `at-asm/src/parsers/reg.rs:5-29` `Reg64::try_parse_str`. -/
def parseReg64 (s : Str) : Option Reg64 :=
  if s = str% "rax" then some .RAX
  else if s = str% "rdi" then some .RDI
  else if s = str% "rsi" then some .RSI
  else if s = str% "rdx" then some .RDX
  else if s = str% "rcx" then some .RCX
  else if s = str% "rbp" then some .RBP
  else if s = str% "rsp" then some .RSP
  else if s = str% "rbx" then some .RBX
  else if s = str% "r8" then some .R8
  else if s = str% "r9" then some .R9
  else if s = str% "r10" then some .R10
  else if s = str% "r11" then some .R11
  else if s = str% "r12" then some .R12
  else if s = str% "r13" then some .R13
  else if s = str% "r14" then some .R14
  else if s = str% "r15" then some .R15
  else none

/-- `at-asm/src/parsers/reg.rs:43-67` `Reg32::try_parse_str`. -/
def parseReg32 (s : Str) : Option Reg32 :=
  if s = str% "eax" then some .EAX
  else if s = str% "edi" then some .EDI
  else if s = str% "esi" then some .ESI
  else if s = str% "edx" then some .EDX
  else if s = str% "ecx" then some .ECX
  else if s = str% "ebp" then some .EBP
  else if s = str% "esp" then some .ESP
  else if s = str% "ebx" then some .EBX
  else if s = str% "r8d" then some .R8D
  else if s = str% "r9d" then some .R9D
  else if s = str% "r10d" then some .R10D
  else if s = str% "r11d" then some .R11D
  else if s = str% "r12d" then some .R12D
  else if s = str% "r13d" then some .R13D
  else if s = str% "r14d" then some .R14D
  else if s = str% "r15d" then some .R15D
  else none

/-- `at-asm/src/parsers/reg.rs:81-105` `Reg16::try_parse_str`. -/
def parseReg16 (s : Str) : Option Reg16 :=
  if s = str% "ax" then some .AX
  else if s = str% "di" then some .DI
  else if s = str% "si" then some .SI
  else if s = str% "dx" then some .DX
  else if s = str% "cx" then some .CX
  else if s = str% "bp" then some .BP
  else if s = str% "sp" then some .SP
  else if s = str% "bx" then some .BX
  else if s = str% "r8w" then some .R8W
  else if s = str% "r9w" then some .R9W
  else if s = str% "r10w" then some .R10W
  else if s = str% "r11w" then some .R11W
  else if s = str% "r12w" then some .R12W
  else if s = str% "r13w" then some .R13W
  else if s = str% "r14w" then some .R14W
  else if s = str% "r15w" then some .R15W
  else none

end AT.Asm
