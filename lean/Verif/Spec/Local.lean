import Verif.Spec.Outcome
import Verif.Spec.Whole
/-!
# Specification: what a change of some lines changes in the file
-/

namespace AT.AsmSpec
open AT.Asm

/-- The lines differ at most in the bytes they emit, not in how many. -/
structure Alike (l l' : Line) : Prop where
  size : (emits l).length = (emits l').length
  defines : AsmSpec.defines l = AsmSpec.defines l'
  relocates : AsmSpec.relocates l = AsmSpec.relocates l'
  switches : AsmSpec.switches l = AsmSpec.switches l'
  global : ∀ n, l = .globalSymbol n ↔ l' = .globalSymbol n
  stores : Stores l ↔ Stores l'

/-- Where in the file the bytes of line `k` are: after the header (32 bytes), the segment command (72),
80 bytes for each section, and the symbol table command (24), come the contents of the sections. -/
def placeOf (ls : List Line) (k : Nat) : Nat :=
  128 + 80 * (stored ls).length + (if sectAt ls k = .data then (content ls .text ls.length).length else 0) +
    (content ls (sectAt ls k) k).length

end AT.AsmSpec
