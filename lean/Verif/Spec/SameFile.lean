import Verif.Spec.AsmProg
/-!
# Specification: sources that say the same

What two sources must have in common for their object files to be equal.
-/

namespace AT.AsmSpec
open AT.Asm

/-- The references of section `x` in source order: where, to which symbol, and the width (two to that
power of bytes). -/
def refs (ls : List Line) (x : Section) : List (Nat × Str × UInt8) :=
  (relocations ls x).map fun p => (p.1, p.2.symbol, p.2.len)

/-- The sources store the same bytes in every section; in each section that is not empty they define
the same labels at the same places in the same order and refer to the same symbols at the same
places; and they agree on which of these labels are global.  Labels of empty sections, declarations
of other names, comments, blank lines and the order of the sections play no role. -/
structure SaySame (ls ms : List Line) : Prop where
  stored : ∀ x, content ls x ls.length = content ms x ms.length
  labels : ∀ x, content ls x ls.length ≠ [] → labels ls x = labels ms x
  refs : ∀ x, content ls x ls.length ≠ [] → refs ls x = refs ms x
  globals : ∀ x, content ls x ls.length ≠ [] → ∀ p ∈ AsmSpec.labels ls x, (Global ls p.1 ↔ Global ms p.1)

end AT.AsmSpec
