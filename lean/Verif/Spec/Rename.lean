import Verif.Spec.AsmRender
/-!
# Specification: renaming the symbols of a program
-/

namespace AT.AsmSpec
open AT.Asm AT.X64

/-- The statement with every symbol renamed by `ρ`. -/
def renameStmt (ρ : Str → Str) : Stmt → Stmt
  | .label n => .label (ρ n)
  | .global n => .global (ρ n)
  | .data lab dir w its => .data (lab.map ρ) dir w its
  | .inst (.sym64 d n) => .inst (.sym64 d (ρ n))
  | .inst (.sym32 d n) => .inst (.sym32 d (ρ n))
  | st => st

/-- The symbols a statement mentions. -/
def stmtNames : Stmt → List Str
  | .label n => [n]
  | .global n => [n]
  | .data lab _ _ _ => lab.toList
  | .inst (.sym64 _ n) => [n]
  | .inst (.sym32 _ n) => [n]
  | _ => []

/-- The line with every symbol renamed by `ρ`. -/
def renameLine (ρ : Str → Str) : Line → Line
  | .symbol n => .symbol (ρ n)
  | .globalSymbol n => .globalSymbol (ρ n)
  | .data d => .data { d with label := d.label.map ρ }
  | .instruction i => .instruction { i with reloc := i.reloc.map fun r => { r with symbol := ρ r.symbol } }
  | l => l

/-- The symbols a line mentions. -/
def lineNames : Line → List Str
  | .symbol n => [n]
  | .globalSymbol n => [n]
  | .data d => d.label.toList
  | .instruction i => (i.reloc.map (·.symbol)).toList
  | _ => []

/-- `ρ` gives different names to different symbols of the program. -/
def KeepsApart (ρ : Str → Str) (names : List Str) : Prop :=
  ∀ m ∈ names, ∀ n ∈ names, ρ m = ρ n → m = n

def renameSymbol (ρ : Str → Str) : Obj.Symbol → Obj.Symbol
  | .undef n => .undef (ρ n)
  | .abs n v e => .abs (ρ n) v e
  | .ref n v e => .ref (ρ n) v e

def renameReloc (ρ : Str → Str) (r : Obj.Reloc) : Obj.Reloc := { r with symbol := ρ r.symbol }

/-- The object with every symbol renamed by `ρ`. -/
def renameObject (ρ : Str → Str) (o : Obj.Object) : Obj.Object :=
  ⟨⟨⟨o.sections.text.bytes, o.sections.text.symbols.map (renameSymbol ρ), o.sections.text.relocs.map (renameReloc ρ)⟩,
    ⟨o.sections.data.bytes, o.sections.data.symbols.map (renameSymbol ρ), o.sections.data.relocs.map (renameReloc ρ)⟩,
    ⟨o.sections.bss.size, o.sections.bss.symbols.map (renameSymbol ρ)⟩⟩⟩

end AT.AsmSpec
