import Verif.Spec.AsmProg
import Verif.Spec.AsmSpec
/-!
# Specification: writing statements down

The statements of the source language as data, the rules for which of them can be written, and one
way to write each: names as they are, numbers in decimal, one blank between words, `, ` between
operands.  Nothing here uses the parsers.
-/

namespace AT.AsmSpec
open AT.Asm AT.X64

/-- A statement. -/
inductive Stmt where
  | blank
  | label (n : Str)
  | sect (x : Section)
  | global (n : Str)
  | data (label : Option Str) (dir : Str) (w : Nat) (items : List Item)
  | inst (x : SrcInst)

/-- `n` in decimal. -/
def dec (n : Nat) : Str := Nat.toDigits 10 n

def renderItem : Item → Str
  | .num n => dec n
  | .str s => '"' :: (s ++ ['"'])

def renderItems : List Item → Str
  | [] => []
  | [it] => renderItem it
  | it :: its => renderItem it ++ str% ", " ++ renderItems its

def renderMov (dst src : Str) : Str := str% "mov " ++ dst ++ str% ", " ++ src

/-- Instructions that the source language does not have are not written (see `InstOk`). -/
def renderInst : SrcInst → Str
  | .plain (.movReg64Reg64 d r) => renderMov d.asmName r.asmName
  | .plain (.movReg32Reg32 d r) => renderMov d.asmName r.asmName
  | .plain (.movReg16Reg16 d r) => renderMov d.asmName r.asmName
  | .plain (.movReg64Imm d n) => renderMov d.asmName (dec n.toNat)
  | .plain (.movReg32Imm d n) => renderMov d.asmName (dec n.toNat)
  | .plain (.movReg16Imm d n) => renderMov d.asmName (dec n.toNat)
  | .plain (.pushReg64 r) => str% "push " ++ r.asmName
  | .plain (.pushU8 n) => str% "push " ++ dec n.toNat
  | .plain (.pushU32 n) => str% "push " ++ dec n.toNat
  | .plain .ret => str% "ret"
  | .plain .syscall => str% "syscall"
  | .plain _ => []
  | .sym64 d name => renderMov d.asmName name
  | .sym32 d name => renderMov d.asmName name

/-- The statement on one line, without the newline. -/
def Stmt.render : Stmt → Str
  | .blank => []
  | .label n => n ++ [':']
  | .sect x => str% "section " ++ sectName x
  | .global n => str% "global " ++ n
  | .data none dir _ its => dir ++ [' '] ++ renderItems its
  | .data (some l) dir _ its => l ++ [' '] ++ dir ++ [' '] ++ renderItems its
  | .inst x => renderInst x

/-- A source file with one line for each statement. -/
def render (sts : List Stmt) : Str := sts.flatMap fun st => st.render ++ ['\n']

/-! ## What can be written -/

/-- A number that fits the element size, or a string that contains no quote (there is no way to
escape one), no semicolon (it starts a comment even here) and no newline. -/
def ItemOk (w : Nat) : Item → Prop
  | .num n => n < 256 ^ w
  | .str s => '"' ∉ s ∧ ';' ∉ s ∧ '\n' ∉ s

/-- A symbol name after `mov r, `: it may contain blanks inside, and may even be empty. -/
def SymName (n : Str) : Prop :=
  StartsSolid n ∧ EndsSolid n ∧ ';' ∉ n ∧ '\n' ∉ n ∧ NotConst n

/-- The instructions that can be written. -/
def InstOk : SrcInst → Prop
  | .plain (.movReg64Reg64 _ _) => True
  | .plain (.movReg32Reg32 _ _) => True
  | .plain (.movReg16Reg16 _ _) => True
  | .plain (.movReg64Imm _ _) => True
  | .plain (.movReg32Imm _ _) => True
  | .plain (.movReg16Imm _ _) => True
  | .plain (.pushReg64 _) => True
  | .plain (.pushU8 _) => True
  | .plain (.pushU32 n) => 256 ≤ n.toNat
  | .plain .ret => True
  | .plain .syscall => True
  | .plain _ => False
  | .sym64 _ name => SymName name ∧ ∀ r : Reg64, name ≠ r.asmName
  | .sym32 _ name => SymName name ∧ ∀ r : Reg32, name ≠ r.asmName

/-- The statements that can be written. -/
def Stmt.Ok : Stmt → Prop
  | .blank => True
  | .label n => Solid n ∧ ';' ∉ n ∧ ∀ r, n ≠ r ++ [':']
  | .sect _ => True
  | .global n => n ≠ [] ∧ Solid n ∧ ';' ∉ n
  | .data lab dir w its => (∀ l, lab = some l → DataLabel l ∧ ';' ∉ l) ∧ (dir, w) ∈ directives ∧
      its ≠ [] ∧ ∀ it ∈ its, ItemOk w it
  | .inst x => InstOk x

end AT.AsmSpec
