import Verif.Model.Obj
import Verif.Spec.MachO
/-!
# Specification: what the Mach-O file of an object must contain

Stated from the object and the Mach-O format only; of the model it uses the data types `Object`,
`Symbol`, `Reloc` and the record types of the format, no function of the writer.
-/

namespace AT.ObjSpec
open AT.Obj AT.Mac AT.MachO

/-- A section that appears in the file. -/
structure Part where
  sectname : Str
  segname : Str
  /-- file contents; `[]` for a zero-fill section -/
  bytes : Bytes
  vmsize : Nat
  zerofill : Bool
  symbols : List Symbol
  relocs : List Reloc

/-- The sections of the object that are not empty, in file order. -/
def parts (o : Object) : List Part :=
  (if o.sections.text.bytes = [] then [] else
    [⟨str% "__text", str% "__TEXT", o.sections.text.bytes, o.sections.text.bytes.length, false,
      o.sections.text.symbols, o.sections.text.relocs⟩]) ++
  (if o.sections.data.bytes = [] then [] else
    [⟨str% "__data", str% "__DATA", o.sections.data.bytes, o.sections.data.bytes.length, false,
      o.sections.data.symbols, o.sections.data.relocs⟩]) ++
  (if o.sections.bss.size = 0 then [] else
    [⟨str% "__bss", str% "__DATA", [], o.sections.bss.size.toNat, true,
      o.sections.bss.symbols, []⟩])

/-- Least multiple of 8 that is not below `n`. -/
def roundUp8 (n : Nat) : Nat := (n + 7) / 8 * 8

/-- Bytes of header and load commands: header 32, segment command 72, 80 per section, symtab 24. -/
def cmdsEnd (ps : List Part) : Nat := 32 + 72 + 80 * ps.length + 24

/-- Bytes of section contents. -/
def dataLen (ps : List Part) : Nat := (ps.map (·.bytes.length)).sum

/-- Number of relocations. -/
def relocCount (ps : List Part) : Nat := (ps.map (·.relocs.length)).sum

/-- All symbols with the index of their section. -/
def placed (ps : List Part) : List (Nat × Symbol) :=
  ps.zipIdx.flatMap (fun p => p.1.symbols.map (fun s => (p.2, s)))

/-- Number of symbols. -/
def symCount (ps : List Part) : Nat := (ps.map (·.symbols.length)).sum

/-- Size of the string table: a NUL, then every name with its NUL. -/
def strLen (ps : List Part) : Nat :=
  1 + (ps.map (fun p => (p.symbols.map (fun s => utf8Len s.name + 1)).sum)).sum

/-- Where the relocation entries start. -/
def relocStart (ps : List Part) : Nat := cmdsEnd ps + roundUp8 (dataLen ps)
/-- Where the symbol entries start. -/
def symStart (ps : List Part) : Nat := relocStart ps + 8 * relocCount ps
/-- Where the string table starts. -/
def strStart (ps : List Part) : Nat := symStart ps + 16 * symCount ps
/-- Length of the whole file. -/
def fileLen (ps : List Part) : Nat := strStart ps + strLen ps

/-- Address space taken by the sections. -/
def vmLen (ps : List Part) : Nat := (ps.map (·.vmsize)).sum

/-- Address of the `i`-th section. -/
def addrOf (ps : List Part) (i : Nat) : Nat := vmLen (ps.take i)

/-- The object fits the file format: every file offset and the size of the string table fit 32 bits,
every address 64 bits. -/
structure Fits (o : Object) : Prop where
  file : strStart (parts o) < 2 ^ 32
  strs : strLen (parts o) < 2 ^ 32
  vm : vmLen (parts o) < 2 ^ 64
  refs : ∀ i name addr ext, (i, Symbol.ref name addr ext) ∈ placed (parts o) →
    addrOf (parts o) i + addr.toNat < 2 ^ 64

/-- Names of the symbols of the emitted sections, in symbol table order. -/
def symNames (o : Object) : List Str := (placed (parts o)).map (·.2.name)

/-- Relocations of the emitted sections, in file order. -/
def allRelocs (o : Object) : List Reloc := (parts o).flatMap (·.relocs)

/-- No emitted symbol name contains NUL. -/
def NulFree (o : Object) : Prop := ∀ n ∈ symNames o, ∀ c ∈ n, c.toNat ≠ 0

/-- The name under which a relocation finds a symbol of the file: its own, or none if that contains
a NUL, since NULs separate the strings of the table. -/
def seen (n : Str) : Str := if Char.ofNat 0 ∈ n then [] else n

/-- Every emitted symbol name is ASCII, every relocation names an emitted symbol and has one of the
four lengths. -/
structure Writable (o : Object) : Prop where
  ascii : ∀ n ∈ symNames o, ∀ c ∈ n, c.toNat < 128
  defined : ∀ r ∈ allRelocs o, r.symbol ∈ (symNames o).map seen
  lens : ∀ r ∈ allRelocs o, r.len.toNat ≤ 3

/-- No count of the object is cut by a cast to 32 bits: contents, relocations, symbols and names of
every emitted section. -/
def CountsFit (o : Object) : Prop := ∀ p ∈ parts o, p.bytes.length < 2 ^ 32 ∧
  p.relocs.length < 2 ^ 32 ∧ p.symbols.length < 2 ^ 32 ∧ ∀ s ∈ p.symbols, utf8Len s.name < 2 ^ 32

end AT.ObjSpec
