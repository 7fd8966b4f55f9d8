import Verif.Spec.AsmSpec
import Verif.Spec.X64Code
import Verif.Model.AsmParse
/-!
# Specification: what a line of source text says

Of the model this uses only the data types of parsed lines.
-/

namespace AT.AsmSpec
open AT.Asm AT.X64

/-- A buffer of 15 bytes that holds `bs`. -/
def buffer (bs : Bytes) : BytesAtMost 15 := ⟨bs ++ List.replicate (15 - bs.length) 0, bs.length⟩

/-- What an instruction of the source language assembles to: its machine code; for the address of a
symbol, zero and an absolute relocation (of 8 or 4 bytes) at the place of the immediate. -/
def assembled : SrcInst → Instruction
  | .plain i => ⟨buffer (X86.machineCode i), none⟩
  | .sym64 d name => ⟨buffer (X86.machineCode (.movReg64Imm d 0)), some ⟨2, name, false, 3⟩⟩
  | .sym32 d name => ⟨buffer (X86.machineCode (.movReg32Imm d 0)),
      some ⟨if X86.high (X86.num32 d) then 2 else 1, name, false, 2⟩⟩

/-- `Reads bd s l`: the line `s` says `l`. -/
inductive Reads (bd : Build) (s : Str) : Line → Prop
  | empty (c : Str) : Code s c → Blank c → Reads bd s .empty
  | sect (c : Str) (x : Section) : Code s c → Tokens c [str% "section", sectName x] → Reads bd s (.sect x)
  | globalSymbol (c n : Str) : Code s c → Tokens c [str% "global", n] → Reads bd s (.globalSymbol n)
  | symbol (c n : Str) (k : Nat) : Code s c → (∀ r, n ≠ r ++ [':']) →
      Tokens c [n ++ List.replicate (k + 1) ':'] → Reads bd s (.symbol n)
  | data (c : Str) (d : Data) (w : Nat) (txt : Str) (its : List Item) : Code s c → DataLine c d.label w txt →
      Items txt its → Stored w its d.bytes → Reads bd s (.data d)
  | instruction (c : Str) (x : SrcInst) : Code s c → (∀ lab w txt, ¬ DataLine c lab w txt) →
      InstLine bd c x → Reads bd s (.instruction (assembled x))

/-- The lines `ss` say `ls`. -/
def ReadsAll (bd : Build) (ss : List Str) (ls : List Line) : Prop :=
  ss.length = ls.length ∧ ∀ (k : Nat) s l, ss[k]? = some s → ls[k]? = some l → Reads bd s l

end AT.AsmSpec
