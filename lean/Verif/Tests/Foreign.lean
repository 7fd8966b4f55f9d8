import Verif.Spec.X86
import Verif.Spec.MachO
/-!
# The specifications on bytes made by other tools

`Spec/X86` and `Spec/MachO` say what instructions and object files mean.  Here they are applied to
bytes that neither the assembler nor the model made: instructions assembled by GNU `as` 2.42 and an
object file assembled by clang 22 for `x86_64-apple-macos10.14`.  `/verif/validation` has the larger
comparisons, which ran outside Lean.
-/

namespace AT.Tests
open AT.Mac AT.MachO

section Instructions
open X86

-- mov ecx,0x7d4bedc
example : decode [0xb9, 0xdc, 0xbe, 0xd4, 0x07] =
    some (.movRegImm .w32 1 131383004, []) := by decide
-- mov bp,0x2b71
example : decode [0x66, 0xbd, 0x71, 0x2b] =
    some (.movRegImm .w16 5 11121, []) := by decide
-- movabs r8,0xd9ed17e3cc0e95ee
example : decode [0x49, 0xb8, 0xee, 0x95, 0x0e, 0xcc, 0xe3, 0x17, 0xed, 0xd9] =
    some (.movRegImm .w64 8 15703233742859310574, []) := by decide
-- mov rcx,rsi
example : decode [0x48, 0x89, 0xf1] =
    some (.movRegReg .w64 1 6, []) := by decide
-- mov r12d,r9d
example : decode [0x45, 0x89, 0xcc] =
    some (.movRegReg .w32 12 9, []) := by decide
-- mov QWORD PTR [r12*2+0x20000687],r9
example : decode [0x4e, 0x89, 0x0c, 0x65, 0x87, 0x06, 0x00, 0x20] =
    some (.movMemReg .w64 (.sib none (some (12, 1)) 536872583) 9, []) := by decide
-- mov QWORD PTR [rax+0x1],r9
example : decode [0x4c, 0x89, 0x48, 0x01] =
    some (.movMemReg .w64 (.sib (some 0) none 1) 9, []) := by decide
-- mov r14,QWORD PTR [rip+0x100008f9]
example : decode [0x4c, 0x8b, 0x35, 0xf9, 0x08, 0x00, 0x10] =
    some (.movRegMem .w64 14 (.rip 268437753), []) := by decide
-- mov edi,DWORD PTR ds:0x200007bb
example : decode [0x8b, 0x3c, 0x25, 0xbb, 0x07, 0x00, 0x20] =
    some (.movRegMem .w32 7 (.sib none none 536872891), []) := by decide
-- mov r14w,WORD PTR [r8-0x1a]
example : decode [0x66, 0x45, 0x8b, 0x70, 0xe6] =
    some (.movRegMem .w16 14 (.sib (some 8) none (-26)), []) := by decide
-- mov QWORD PTR [r12+rdi*4],r14
example : decode [0x4d, 0x89, 0x34, 0xbc] =
    some (.movMemReg .w64 (.sib (some 12) (some (7, 2)) 0) 14, []) := by decide
-- mov rdx,QWORD PTR [rsp]
example : decode [0x48, 0x8b, 0x14, 0x24] =
    some (.movRegMem .w64 2 (.sib (some 4) none 0), []) := by decide
-- mov rdx,QWORD PTR [r13+0x0]
example : decode [0x49, 0x8b, 0x55, 0x00] =
    some (.movRegMem .w64 2 (.sib (some 13) none 0), []) := by decide
-- mov rdx,QWORD PTR [rbp+r12*8-0x190]
example : decode [0x4a, 0x8b, 0x94, 0xe5, 0x70, 0xfe, 0xff, 0xff] =
    some (.movRegMem .w64 2 (.sib (some 5) (some (12, 3)) (-400)), []) := by decide
-- lea ebp,[r14+rcx*8-0x14b]
example : decode [0x41, 0x8d, 0xac, 0xce, 0xb5, 0xfe, 0xff, 0xff] =
    some (.lea .w32 5 (.sib (some 14) (some (1, 3)) (-331)), []) := by decide
-- lea rsi,[rip+0xe]
example : decode [0x48, 0x8d, 0x35, 0x0e, 0x00, 0x00, 0x00] =
    some (.lea .w64 6 (.rip 14), []) := by decide
-- pop si
example : decode [0x66, 0x5e] =
    some (.popReg .w16 6, []) := by decide
-- pop r10
example : decode [0x41, 0x5a] =
    some (.popReg .w64 10, []) := by decide
-- push ax
example : decode [0x66, 0x50] =
    some (.pushReg .w16 0, []) := by decide
-- push r12
example : decode [0x41, 0x54] =
    some (.pushReg .w64 12, []) := by decide
-- push 0x24
example : decode [0x6a, 0x24] =
    some (.pushImm .w64 36, []) := by decide
-- push 0xfffffffffffffffd
example : decode [0x6a, 0xfd] =
    some (.pushImm .w64 (-3), []) := by decide
-- push 0x7cd26dad
example : decode [0x68, 0xad, 0x6d, 0xd2, 0x7c] =
    some (.pushImm .w64 2094165421, []) := by decide
-- pop rdx
example : decode [0x5a] =
    some (.popReg .w64 2, []) := by decide
-- ret
example : decode [0xc3] =
    some (.ret, []) := by decide
-- syscall
example : decode [0x0f, 0x05] =
    some (.syscall, []) := by decide

end Instructions

/-- The object clang makes of
```
.text
.globl _main
_main:
 mov %rsp,%rbp
 movabs $_foo,%rax
 ret
.data
_foo: .quad 5
.quad _main
``` -/
def clangObject : Bytes :=
   [0xcf, 0xfa, 0xed, 0xfe, 0x07, 0x00, 0x00, 0x01, 0x03, 0x00, 0x00, 0x00, 0x01, 0x00, 0x00, 0x00,
    0x04, 0x00, 0x00, 0x00, 0x68, 0x01, 0x00, 0x00, 0x00, 0x00, 0x00, 0x00, 0x00, 0x00, 0x00, 0x00,
    0x19, 0x00, 0x00, 0x00, 0xe8, 0x00, 0x00, 0x00, 0x00, 0x00, 0x00, 0x00, 0x00, 0x00, 0x00, 0x00,
    0x00, 0x00, 0x00, 0x00, 0x00, 0x00, 0x00, 0x00, 0x00, 0x00, 0x00, 0x00, 0x00, 0x00, 0x00, 0x00,
    0x1e, 0x00, 0x00, 0x00, 0x00, 0x00, 0x00, 0x00, 0x88, 0x01, 0x00, 0x00, 0x00, 0x00, 0x00, 0x00,
    0x1e, 0x00, 0x00, 0x00, 0x00, 0x00, 0x00, 0x00, 0x07, 0x00, 0x00, 0x00, 0x07, 0x00, 0x00, 0x00,
    0x02, 0x00, 0x00, 0x00, 0x00, 0x00, 0x00, 0x00, 0x5f, 0x5f, 0x74, 0x65, 0x78, 0x74, 0x00, 0x00,
    0x00, 0x00, 0x00, 0x00, 0x00, 0x00, 0x00, 0x00, 0x5f, 0x5f, 0x54, 0x45, 0x58, 0x54, 0x00, 0x00,
    0x00, 0x00, 0x00, 0x00, 0x00, 0x00, 0x00, 0x00, 0x00, 0x00, 0x00, 0x00, 0x00, 0x00, 0x00, 0x00,
    0x0e, 0x00, 0x00, 0x00, 0x00, 0x00, 0x00, 0x00, 0x88, 0x01, 0x00, 0x00, 0x00, 0x00, 0x00, 0x00,
    0xa8, 0x01, 0x00, 0x00, 0x01, 0x00, 0x00, 0x00, 0x00, 0x04, 0x00, 0x80, 0x00, 0x00, 0x00, 0x00,
    0x00, 0x00, 0x00, 0x00, 0x00, 0x00, 0x00, 0x00, 0x5f, 0x5f, 0x64, 0x61, 0x74, 0x61, 0x00, 0x00,
    0x00, 0x00, 0x00, 0x00, 0x00, 0x00, 0x00, 0x00, 0x5f, 0x5f, 0x44, 0x41, 0x54, 0x41, 0x00, 0x00,
    0x00, 0x00, 0x00, 0x00, 0x00, 0x00, 0x00, 0x00, 0x0e, 0x00, 0x00, 0x00, 0x00, 0x00, 0x00, 0x00,
    0x10, 0x00, 0x00, 0x00, 0x00, 0x00, 0x00, 0x00, 0x96, 0x01, 0x00, 0x00, 0x00, 0x00, 0x00, 0x00,
    0xb0, 0x01, 0x00, 0x00, 0x01, 0x00, 0x00, 0x00, 0x00, 0x00, 0x00, 0x00, 0x00, 0x00, 0x00, 0x00,
    0x00, 0x00, 0x00, 0x00, 0x00, 0x00, 0x00, 0x00, 0x32, 0x00, 0x00, 0x00, 0x18, 0x00, 0x00, 0x00,
    0x01, 0x00, 0x00, 0x00, 0x00, 0x0e, 0x0a, 0x00, 0x00, 0x00, 0x00, 0x00, 0x00, 0x00, 0x00, 0x00,
    0x02, 0x00, 0x00, 0x00, 0x18, 0x00, 0x00, 0x00, 0xb8, 0x01, 0x00, 0x00, 0x02, 0x00, 0x00, 0x00,
    0xd8, 0x01, 0x00, 0x00, 0x10, 0x00, 0x00, 0x00, 0x0b, 0x00, 0x00, 0x00, 0x50, 0x00, 0x00, 0x00,
    0x00, 0x00, 0x00, 0x00, 0x01, 0x00, 0x00, 0x00, 0x01, 0x00, 0x00, 0x00, 0x01, 0x00, 0x00, 0x00,
    0x02, 0x00, 0x00, 0x00, 0x00, 0x00, 0x00, 0x00, 0x00, 0x00, 0x00, 0x00, 0x00, 0x00, 0x00, 0x00,
    0x00, 0x00, 0x00, 0x00, 0x00, 0x00, 0x00, 0x00, 0x00, 0x00, 0x00, 0x00, 0x00, 0x00, 0x00, 0x00,
    0x00, 0x00, 0x00, 0x00, 0x00, 0x00, 0x00, 0x00, 0x00, 0x00, 0x00, 0x00, 0x00, 0x00, 0x00, 0x00,
    0x00, 0x00, 0x00, 0x00, 0x00, 0x00, 0x00, 0x00, 0x48, 0x89, 0xe5, 0x48, 0xb8, 0x00, 0x00, 0x00,
    0x00, 0x00, 0x00, 0x00, 0x00, 0xc3, 0x05, 0x00, 0x00, 0x00, 0x00, 0x00, 0x00, 0x00, 0x00, 0x00,
    0x00, 0x00, 0x00, 0x00, 0x00, 0x00, 0x00, 0x00, 0x05, 0x00, 0x00, 0x00, 0x00, 0x00, 0x00, 0x0e,
    0x08, 0x00, 0x00, 0x00, 0x01, 0x00, 0x00, 0x0e, 0x01, 0x00, 0x00, 0x00, 0x0e, 0x02, 0x00, 0x00,
    0x0e, 0x00, 0x00, 0x00, 0x00, 0x00, 0x00, 0x00, 0x06, 0x00, 0x00, 0x00, 0x0f, 0x01, 0x00, 0x00,
    0x00, 0x00, 0x00, 0x00, 0x00, 0x00, 0x00, 0x00, 0x00, 0x5f, 0x66, 0x6f, 0x6f, 0x00, 0x5f, 0x6d,
    0x61, 0x69, 0x6e, 0x00, 0x00, 0x00, 0x00, 0x00]

/-- Its header. -/
def clangHeader : Header64 := ⟨.magic64, .x86_64 .all, .object, 4, 360, [], 0⟩

def clangSegment : SegmentCommand64 := ⟨25, 232, [], 0, 30, 392, 30, 7, 7, 2, 0⟩

def clangText : Section64 :=
  ⟨"__text".toList, "__TEXT".toList, 0, 14, 392, 0, 424, 1, [.someInstructions, .pureInstructions], .regular, 0, 0, 0⟩

def clangData : Section64 :=
  ⟨"__data".toList, "__DATA".toList, 14, 16, 406, 0, 432, 1, [], .regular, 0, 0, 0⟩

def clangVersion : BuildVersionCommand := ⟨50, 24, .macOS, ⟨10, 14, 0⟩, ⟨0, 0, 0⟩, 0⟩

def clangSymtab : SymtabCommand := ⟨2, 24, 440, 2, 472, 16⟩

def clangDysymtab : DysymtabCommand :=
  ⟨11, 80, 0, 1, 1, 1, 2, 0, 0, 0, 0, 0, 0, 0, 0, 0, 0, 0, 0, 0⟩

/-- All fields of a structure placed at `base`, decided. -/
def hasFields (e : Endian) (f : Bytes) (base : Nat) (l : List Field) : Bool :=
  l.all fun
    | .num off len val => numAt e f (base + off) len == some val
    | .name off len s => bytesAt f (base + off) len == some (nameField len s)

theorem hasFields_iff (e : Endian) (f : Bytes) (base : Nat) (l : List Field) :
    hasFields e f base l = true ↔ HasFields e f base l := by
  simp only [hasFields, HasFields, List.all_eq_true]
  refine forall_congr' fun x => forall_congr' fun _ => ?_
  cases x <;> simp [Field.holds]

-- What the format says is where clang put it.
example : HasFields .little clangObject 0 (headerFields clangHeader) :=
  (hasFields_iff ..).1 (by decide +kernel)
example : HasFields .little clangObject 32 (segmentFields clangSegment) :=
  (hasFields_iff ..).1 (by decide +kernel)
example : HasFields .little clangObject 104 (sectionFields clangText) :=
  (hasFields_iff ..).1 (by decide +kernel)
example : HasFields .little clangObject 184 (sectionFields clangData) :=
  (hasFields_iff ..).1 (by decide +kernel)
example : HasFields .little clangObject 264 (buildVersionFields clangVersion) :=
  (hasFields_iff ..).1 (by decide +kernel)
example : HasFields .little clangObject 288 (symtabFields clangSymtab) :=
  (hasFields_iff ..).1 (by decide +kernel)
example : HasFields .little clangObject 312 (dysymtabFields clangDysymtab) :=
  (hasFields_iff ..).1 (by decide +kernel)
-- the address in `movabs`, of `_foo` (symbol 0), and the second `.quad`, of `_main` (symbol 1)
example : HasFields .little clangObject 424 (relocFields .little ⟨5, 0, false, .quad, true, 0⟩) :=
  (hasFields_iff ..).1 (by decide +kernel)
example : HasFields .little clangObject 432 (relocFields .little ⟨8, 1, false, .quad, true, 0⟩) :=
  (hasFields_iff ..).1 (by decide +kernel)
example : HasFields .little clangObject 440 (nlistFields ⟨1, .norm false .sect false, 2, 0, 14⟩) :=
  (hasFields_iff ..).1 (by decide +kernel)
example : HasFields .little clangObject 456 (nlistFields ⟨6, .norm false .sect true, 1, 0, 0⟩) :=
  (hasFields_iff ..).1 (by decide +kernel)
example : cstrAt clangObject (472 + 1) = some [0x5f, 0x66, 0x6f, 0x6f] := by decide +kernel
example : cstrAt clangObject (472 + 6) = some [0x5f, 0x6d, 0x61, 0x69, 0x6e] := by decide +kernel
-- the code
example : (bytesAt clangObject 392 14).bind (fun b => (X86.decode b).map (·.1)) = some (.movRegReg .w64 5 4) := by
  decide +kernel

-- The model of at-mac reads it.
example : Header64.readFrom .little clangObject = .ok ((clangHeader, .little), clangObject.drop 32) := by
  decide +kernel
example (bd : Build) : readN (LoadCommand.readFromIn bd .little) 4 (clangObject.drop 32) =
    .ok ([.segment64 clangSegment [clangText, clangData], .buildVersion clangVersion [],
      .symtab clangSymtab, .dysymtab clangDysymtab], clangObject.drop 392) := by
  cases bd <;> decide +kernel

end AT.Tests
