import Verif.Model.AsmIo
/-!
# Files whose reads and writes may be partial, interrupted or failing
-/

namespace AT.AsmSpec
open AT.Asm

/-- `Answers src gs`: reading a file with contents `src` may go like `gs`: each call delivers some next
bytes of the file, is interrupted, or fails; after a failure anything may follow. -/
inductive Answers : Bytes → List Got → Prop where
  | eof : Answers [] []
  | bytes (c rest : Bytes) (gs : List Got) : c ≠ [] → Answers rest gs → Answers (c ++ rest) (.bytes c :: gs)
  | interrupted (src : Bytes) (gs : List Got) : Answers src gs → Answers src (.interrupted :: gs)
  | failed (src : Bytes) (gs : List Got) : Answers src (.failed :: gs)

/-- The bytes delivered before the first failure. -/
def delivered : List Got → Bytes
  | [] => []
  | .bytes c :: gs => c ++ delivered gs
  | .interrupted :: gs => delivered gs
  | .failed :: _ => []

/-- `write` makes progress or asks to be called again. -/
def Progress (p : Put) : Prop := p = .interrupted ∨ ∃ n, 0 < n ∧ p = .accept n

end AT.AsmSpec
