import Verif.Spec.Calls
/-!
# Inputs of which the beginning is known
-/

namespace AT.AsmSpec
open AT.Asm

/-- Another program does not change the paths and permissions and lets the file `i` begin with `p`.  All
else it may change: what follows in this file, and all other files. -/
structure KeepsStart (p : Bytes) (i : Nat) (f : FS → FS) : Prop where
  node : ∀ g, (f g).node = g.node
  canRead : ∀ g, (f g).canRead = g.canRead
  canWrite : ∀ g, (f g).canWrite = g.canWrite
  begins : ∀ g z, g.content i = some (p ++ z) → ∃ z', (f g).content i = some (p ++ z')

/-- The call reads the file `i`, from a place among its first `n` bytes. -/
def ReadsAmong (i n : Nat) : Sys → Prop
  | .read j pos _ => j = i ∧ pos < n
  | _ => False

/-- A step of the run whose call is not interrupted. -/
def getsOn : Move → Bool
  | .own .interrupted => false
  | .own _ => true
  | .other _ => false

end AT.AsmSpec
