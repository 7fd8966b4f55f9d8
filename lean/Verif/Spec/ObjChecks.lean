import Verif.Spec.ObjWrap
/-!
# Specification: the overflow checks of a debug build

A debug build stops at the first sum that exceeds its type.  Counts and lengths are cast to 32 bits
before they are added, without a check: a sum of casts is what has to fit, not the true sum.
-/

namespace AT.ObjSpec
open AT.Obj AT.Mac AT.MachO

/-- The sum of numbers, each cast to 32 bits. -/
def castSum (l : List Nat) : Nat := (l.map (· % 2 ^ 32)).sum

/-- Size of the contents of the sections in the file, from cast lengths. -/
def castData (ps : List Part) : Nat := roundUp8 (castSum (ps.map (·.bytes.length)))

/-- Where the symbol entries start, from cast counts. -/
def castSymStart (ps : List Part) : Nat :=
  cmdsEnd ps + castData ps + 8 * castSum (ps.map (·.relocs.length))

/-- Where the string table starts, from cast counts. -/
def castStrStart (ps : List Part) : Nat := castSymStart ps + 16 * castSum (ps.map (·.symbols.length))

/-- Offset of the name `n` among the strings of the table, from cast lengths. -/
def castOff (table : List Str) (n : Str) : Nat :=
  1 + ((table.takeWhile (· ≠ n)).map (fun s => utf8Len s % 2 ^ 32 + 1)).sum

/-- The numbers of the segment command fit. -/
structure SegmentFits (o : Object) : Prop where
  vm : vmLen (parts o) < 2 ^ 64
  data : castData (parts o) < 2 ^ 32

/-- The numbers of the symbol table command fit. -/
structure SymtabFits (o : Object) : Prop where
  file : castStrStart (parts o) < 2 ^ 32
  strs : 1 + ((symNames o).map (fun n => utf8Len n % 2 ^ 32 + 1)).sum < 2 ^ 32

/-- The numbers of the symbol entries fit. -/
structure SymbolsFit (o : Object) : Prop where
  offs : ∀ n ∈ symNames o, castOff (tableStrings (symNames o)) n < 2 ^ 32
  refs : ∀ i name addr ext, (i, Symbol.ref name addr ext) ∈ placed (parts o) →
    addrOf (parts o) i + addr.toNat < 2 ^ 64

open Classical in
/-- How much of the file a debug build writes. -/
noncomputable def checkedLen (o : Object) : Nat :=
  if ¬ SegmentFits o then 32
  else if ¬ castSymStart (parts o) < 2 ^ 32 then 32 + 72
  else if ¬ SymtabFits o then 32 + 72 + 80 * (parts o).length
  else if ¬ (Expressible o ∧ SymbolsFit o) then relocStart (parts o)
  else fileLen (parts o)

end AT.ObjSpec
