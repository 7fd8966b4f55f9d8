import Verif.Model.MacRead
import Verif.Spec.AsmIo
/-!
# What a `Read` delivers
-/

namespace AT.MachO
open AT.Asm (Got)

/-- The bytes a `Read` delivers before it first fails or reports the end of the file. -/
def arrives : List Got → Bytes
  | [] => []
  | .bytes [] :: _ => []
  | .bytes (c :: cs) :: gs => c :: cs ++ arrives gs
  | .interrupted :: gs => arrives gs
  | .failed :: _ => []

/-- What a reader over `gs` is to return when `r` is the result of reading the bytes `arrives gs` from a
buffer: the same value or the same stop; after a value, the reader continues behind the bytes used. -/
def SameAs {α : Type} (r : Res (α × Bytes)) (io : Res (α × List Got)) : Prop :=
  match r with
  | .ok (a, rest) => ∃ gs', io = .ok (a, gs') ∧ arrives gs' = rest
  | .error e => io = .error e

/-- Load commands read one after another (`read_from_in` called `n` times). -/
def readCommands (bd : Build) (e : Mac.Endian) : Nat → List Got → Res (List Mac.LoadCommand × List Got)
  | 0, gs => .ok ([], gs)
  | n + 1, gs => do
    let c ← Mac.LoadCommand.readFromInIo bd e gs
    let l ← readCommands bd e n c.2
    pure (c.1 :: l.1, l.2)

end AT.MachO
