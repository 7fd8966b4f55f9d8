import Verif.Spec.AsmReads
import Verif.Model.Obj
/-!
# Specification: what a whole source file means

Of the model this uses only the data types of parsed lines and objects; what a single line says is in
`Spec/AsmReads.lean`.  A program is a list of parsed lines; the
section current at a line, the bytes emitted before it and the symbols and relocations it defines are
computed from the list.
-/

namespace AT.AsmSpec
open AT.Asm AT.X64

/-! ## Lines of the input -/

/-- `Cut input ls`: `ls` are the lines of `input`, which is cut after each newline. -/
structure Cut (input : Bytes) (ls : List Bytes) : Prop where
  all : ls.flatten = input
  nonempty : ∀ l ∈ ls, l ≠ []
  inner : ∀ l ∈ ls, (10 : UInt8) ∉ l.dropLast
  ends : ∀ l ∈ ls.dropLast, l.getLast? = some 10

/-- `Program bd input ls`: the lines of `input` are UTF-8 and say `ls`. -/
def Program (bd : Build) (input : Bytes) (ls : List Line) : Prop :=
  ∃ ss : List Str, Cut input (ss.map utf8) ∧ ReadsAll bd ss ls

/-! ## Programs -/

/-- The bytes a line emits. -/
def emits : Line → Bytes
  | .data d => d.bytes
  | .instruction i => i.bytes.buf.take i.bytes.len
  | _ => []

/-- The label a line defines. -/
def defines : Line → Option Str
  | .symbol n => some n
  | .data d => d.label
  | _ => none

/-- The relocation a line asks for. -/
def relocates : Line → Option LocalReloc
  | .instruction i => i.reloc
  | _ => none

/-- The section a line switches to. -/
def switches : Line → Option Section
  | .sect s => some s
  | _ => none

/-- The section current at line `k` (counted from 0): that of the last section line before it. -/
def sectAt (ls : List Line) (k : Nat) : Section := ((ls.take k).filterMap switches).getLast?.getD .text

/-- What line `k` emits into section `x`. -/
def emitsAt (ls : List Line) (x : Section) (k : Nat) : Bytes :=
  match ls[k]? with
  | some l => if sectAt ls k = x then emits l else []
  | none => []

/-- Everything emitted into section `x` before line `k`. -/
def content (ls : List Line) (x : Section) (k : Nat) : Bytes := (List.range k).flatMap (emitsAt ls x)

/-- The label that line `k` defines in section `x`, with its offset in the section. -/
def labelAt (ls : List Line) (x : Section) (k : Nat) : Option (Str × Nat) :=
  match ls[k]? with
  | some l => if sectAt ls k = x then (defines l).map (fun n => (n, (content ls x k).length)) else none
  | none => none

/-- The labels of section `x` in source order. -/
def labels (ls : List Line) (x : Section) : List (Str × Nat) := (List.range ls.length).filterMap (labelAt ls x)

/-- The relocation that line `k` asks for in section `x`, with its offset in the section. -/
def relocAt (ls : List Line) (x : Section) (k : Nat) : Option (Nat × LocalReloc) :=
  match ls[k]? with
  | some l =>
    if sectAt ls k = x then (relocates l).map (fun r => ((content ls x k).length + r.offset.toNat, r)) else none
  | none => none

/-- The relocations of section `x` in source order. -/
def relocations (ls : List Line) (x : Section) : List (Nat × LocalReloc) :=
  (List.range ls.length).filterMap (relocAt ls x)

/-- Some line declares `n` global. -/
def Global (ls : List Line) (n : Str) : Prop := Line.globalSymbol n ∈ ls

instance (ls : List Line) (n : Str) : Decidable (Global ls n) := inferInstanceAs (Decidable (_ ∈ _))

/-- The line stores something: it is a data line or an instruction. -/
def Stores : Line → Prop
  | .data _ => True
  | .instruction _ => True
  | _ => False

/-- No line stores something while `.bss` is the current section. -/
def NoBssContent (ls : List Line) : Prop := ∀ k l, ls[k]? = some l → sectAt ls k = .bss → ¬ Stores l

/-- The program stays within the assembler's counters: fewer than 2^32 lines, and every relocation
below 2 GiB. -/
structure Small (ls : List Line) : Prop where
  lines : ls.length < 2 ^ 32
  relocs : ∀ x p, p ∈ relocations ls x → p.1 < 2 ^ 31

/-- Adding `r.offset` to the section size overflows 32 bits with sign: the relocation lies at one of
the first `r.offset` positions from 2 GiB on, modulo 4 GiB. -/
def Crosses (p : Nat × LocalReloc) : Prop :=
  2 ^ 31 ≤ p.1 % 2 ^ 32 ∧ p.1 % 2 ^ 32 < 2 ^ 31 + p.2.offset.toNat

/-- The overflow checks of the build let the program pass: release builds have none; in debug builds
there are fewer than 2^32 lines and no relocation crosses 2 GiB. -/
structure Within (bd : Build) (ls : List Line) : Prop where
  lines : bd = .debug → ls.length < 2 ^ 32
  relocs : bd = .debug → ∀ x p, p ∈ relocations ls x → ¬ Crosses p

/-! ## Sections of an object -/

/-- Contents of a section. -/
def bytesOf (o : Obj.Object) : Section → Bytes
  | .text => o.sections.text.bytes
  | .data => o.sections.data.bytes
  | .bss => []

/-- Symbols of a section. -/
def symbolsOf (o : Obj.Object) : Section → List Obj.Symbol
  | .text => o.sections.text.symbols
  | .data => o.sections.data.symbols
  | .bss => o.sections.bss.symbols

/-- Relocations of a section. -/
def relocsOf (o : Obj.Object) : Section → List Obj.Reloc
  | .text => o.sections.text.relocs
  | .data => o.sections.data.relocs
  | .bss => []

end AT.AsmSpec
