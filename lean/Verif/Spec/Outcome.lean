import Verif.Spec.AsmProg
import Verif.Spec.AsmErrors
/-!
# Specification: what assembling gives, for every input

An input is either a program, whose object is `objectOf`, or has a first line that stops the assembler.
-/

namespace AT.AsmSpec
open AT.Asm AT.X64

/-! ## The object of a program -/

/-- The symbol of a label: its offset in the section, external if it is declared global. -/
def symbolOf (ls : List Line) (p : Str × Nat) : Obj.Symbol :=
  .ref p.1 (UInt64.ofNat p.2) (decide (Global ls p.1))

/-- The entry of a relocation. -/
def entryOf (p : Nat × LocalReloc) : Obj.Reloc := ⟨Int32.ofNat p.1, p.2.symbol, p.2.pcrel, p.2.len⟩

/-- The object of a program: what the lines emit, the labels and the relocations of each section, in
source order. -/
def objectOf (ls : List Line) : Obj.Object := { sections := {
  text := {
    bytes := content ls .text ls.length
    symbols := (labels ls .text).map (symbolOf ls)
    relocs := (relocations ls .text).map entryOf }
  data := {
    bytes := content ls .data ls.length
    symbols := (labels ls .data).map (symbolOf ls)
    relocs := (relocations ls .data).map entryOf }
  bss := {
    size := 0
    symbols := (labels ls .bss).map (symbolOf ls) } } }

/-! ## Lines that stop the assembler -/

/-- The constant in a `mov` to a register overflows the signed 64-bit computation. -/
def OverflowLine (s : Str) : Prop := ∃ c dst src ts, Code s c ∧ MovLine c dst src ∧
  ((∃ d : Reg64, dst = d.asmName) ∨ (∃ d : Reg32, dst = d.asmName) ∨ (∃ d : Reg16, dst = d.asmName)) ∧
  Spells src ts ∧ Overflow ts

/-- The line numbers of a debug build are checked: the line after `ls` still has one. -/
def Numbered (bd : Build) (ls : List Line) : Prop := bd = .debug → ls.length + 1 < 2 ^ 32

/-- `StopsAt bd ls b e`: when the lines `ls` have been assembled and the next line is `b`, the
assembler stops with `e`. -/
inductive StopsAt (bd : Build) (ls : List Line) (b : Bytes) : Stop → Prop
  /-- The line is not UTF-8. -/
  | notText : (∀ s, b ≠ utf8 s) → StopsAt bd ls b .panic
  /-- The line number overflows. -/
  | lineNumber (s : Str) : b = utf8 s → ¬ Numbered bd ls → StopsAt bd ls b .panic
  /-- The line is wrong, and reported with its number (modulo `2 ^ 32`). -/
  | wrong (s c msg num : Str) : b = utf8 s → Numbered bd ls → Code s c → Wrong bd c msg →
      Decimal ((ls.length + 1) % 2 ^ 32) num →
      StopsAt bd ls b (.exit 1 (str% "error at line " ++ num ++ str% ": " ++ msg ++ str% "\n"))
  /-- The value of a constant overflows. -/
  | overflow (s : Str) : b = utf8 s → bd = .debug → OverflowLine s → StopsAt bd ls b .panic
  /-- The line stores something in `.bss`. -/
  | bss (s : Str) (l : Line) : b = utf8 s → Numbered bd ls → Reads bd s l →
      sectAt ls ls.length = .bss → Stores l → relocates l = none →
      StopsAt bd ls b (.exit 1 (str% "error: can't write data to .bss section\n"))
  /-- The line asks for a relocation in `.bss`. -/
  | bssReloc (s : Str) (l : Line) : b = utf8 s → Reads bd s l →
      sectAt ls ls.length = .bss → relocates l ≠ none → StopsAt bd ls b .panic
  /-- The address of a relocation overflows. -/
  | address (s : Str) (l : Line) (r : LocalReloc) : b = utf8 s → bd = .debug → Reads bd s l →
      relocates l = some r →
      Crosses ((content ls (sectAt ls ls.length) ls.length).length + r.offset.toNat, r) →
      StopsAt bd ls b .panic

/-- Some line of `input` stops the assembler with `e`; the lines before it are all assembled. -/
def Stops (bd : Build) (input : Bytes) (e : Stop) : Prop :=
  ∃ (ss : List Str) (ls : List Line) (b : Bytes) (rest : List Bytes),
    Cut input (ss.map utf8 ++ b :: rest) ∧ ReadsAll bd ss ls ∧
    NoBssContent ls ∧ Within bd ls ∧ StopsAt bd ls b e

end AT.AsmSpec
