import Verif.Spec.AsmProg
import Verif.Spec.AsmSpec
import Verif.Spec.ObjSpec
import Verif.Spec.X86Meaning
/-!
# Specification: the object file of a whole program

Everything is computed from the source program; of the model only data types are used.
-/

namespace AT.AsmSpec
open AT.Asm AT.X64

/-! ## What the file must contain -/

/-- Name of a section in the file. -/
def fileName : Section → Str
  | .text => str% "__text"
  | .data => str% "__data"
  | .bss => str% "__bss"

/-- The sections into which the program stores something, in file order. -/
def stored (ls : List Line) : List Section := [.text, .data].filter (fun x => content ls x ls.length ≠ [])

/-- A defined name. -/
structure Def where
  sect : Section
  name : Str
  /-- offset in the section -/
  off : Nat
  deriving DecidableEq

/-- The labels of those sections: the expected symbol table. -/
def table (ls : List Line) : List Def :=
  (stored ls).flatMap fun x => (labels ls x).map fun p => ⟨x, p.1, p.2⟩

/-- Nothing is stored in `.bss`, the labels are ASCII, and every symbol that is used is defined in
a section that is not empty.  A label with a NUL character cannot be referred to, it counts as a
definition of the empty name. -/
structure Complete (ls : List Line) : Prop where
  noBss : NoBssContent ls
  ascii : ∀ e ∈ table ls, ∀ c ∈ e.name, c.toNat < 128
  defined : ∀ x p, p ∈ relocations ls x → ∃ e ∈ table ls, ObjSpec.seen e.name = p.2.symbol

/-- The file of the program fits the format: headers and load commands, the contents rounded up to
eight bytes, the relocations and the symbols end before 4 GiB, and the names with their NULs take
less than 4 GiB. -/
structure FileFits (ls : List Line) : Prop where
  file : 128 + 80 * (stored ls).length + ObjSpec.roundUp8 ((content ls .text ls.length).length +
    (content ls .data ls.length).length) + 8 * ((relocations ls .text).length +
    (relocations ls .data).length) + 16 * (table ls).length < 2 ^ 32
  names : 1 + ((table ls).map (fun e => utf8Len e.name + 1)).sum < 2 ^ 32

/-- Conditions under which the program can be written as an object file: it fits the counters and
offsets of assembler and file format, stores nothing in `.bss`, its labels are ASCII without NUL, and
every symbol used is defined (in a section that is not empty). -/
structure Acceptable (ls : List Line) : Prop where
  small : Small ls
  noBss : NoBssContent ls
  ascii : ∀ e ∈ table ls, ∀ c ∈ e.name, 0 < c.toNat ∧ c.toNat < 128
  defined : ∀ x p, p ∈ relocations ls x → ∃ e ∈ table ls, e.name = p.2.symbol
  symbols : (table ls).length < 2 ^ 24
  size : 300 + (content ls .text ls.length).length + (content ls .data ls.length).length +
    8 * ((relocations ls .text).length + (relocations ls .data).length) +
    ((table ls).map (fun e => 17 + utf8Len e.name)).sum < 2 ^ 32

/-! ## Instructions -/

/-- The instruction a line asks for, `val` giving the addresses of symbols. -/
def srcMeaning (val : Str → Nat) : SrcInst → X86.Inst
  | .plain i => X86.meaning i
  | .sym64 d n => .movRegImm .w64 (X86.num64 d) (val n)
  | .sym32 d n => .movRegImm .w32 (X86.num32 d) (val n)

/-- Line `k` is an instruction in `.text`. -/
def isCode (ls : List Line) (k : Nat) : Bool :=
  sectAt ls k = .text && match ls[k]? with | some (.instruction _) => true | _ => false

/-- The numbers of the instruction lines of `.text`, from line `j` on. -/
def codeLines (ls : List Line) (j : Nat) : List Nat := (List.range' j (ls.length - j)).filter (isCode ls)

/-- Line `k` of the source spells an instruction whose meaning is `ci`. -/
def AsksFor (bd : Build) (ss : List Str) (val : Str → Nat) (k : Nat) (ci : X86.Inst) : Prop :=
  ∃ s c x, ss[k]? = some s ∧ Code s c ∧ InstLine bd c x ∧ ci = srcMeaning val x

/-- The lists have the same length and their elements are related one by one. -/
structure OneByOne {α β : Type} (r : α → β → Prop) (l : List α) (m : List β) : Prop where
  length : l.length = m.length
  each : ∀ (p : Nat) a b, l[p]? = some a → m[p]? = some b → r a b

/-- No data line in `.text`. -/
def PureText (ls : List Line) : Prop := ∀ k d, ls[k]? = some (.data d) → sectAt ls k ≠ .text

/-- Every `push` constant is one that `push` can push: below 128, or between 256 and 2^31. -/
def PushesFit (bd : Build) (ss : List Str) : Prop :=
  ∀ s ∈ ss, ∀ c i, Code s c → InstLine bd c (.plain i) → X86.PushFits i

/-- Address of a name, `base` giving the address of each section: the first definition counts. -/
def addressOf (ls : List Line) (base : Str → Nat) (n : Str) : Option Nat :=
  ((table ls).find? (·.name = n)).map fun e => base (fileName e.sect) + e.off

end AT.AsmSpec
