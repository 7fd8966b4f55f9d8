import Verif.Spec.Outcome
import Verif.Spec.Path
/-!
# Specification: what a run of the program is asked to do, and when it complains
-/

namespace AT.AsmSpec
open AT.Asm

/-- `Left args o rest`: the first `-o` of `args` is followed by `o`, and `rest` are the other arguments;
or there is no `-o`. -/
inductive Left (args : List Str) : Option Str → List Str → Prop
  | without : str% "-o" ∉ args → Left args none args
  | withOut (pre : List Str) (out : Str) (post : List Str) : args = pre ++ str% "-o" :: out :: post →
      str% "-o" ∉ pre → Left args (some out) (pre ++ post)

/-- `args` (the name of the program first) ask to assemble `inp` into `out`. -/
def Asks (args : List Str) (inp out : Str) : Prop :=
  (∃ prog, Left args (some out) [prog, inp]) ∨ (∃ prog, Left args none [prog, inp]) ∧ Renamed inp out

/-- The files can be opened, and `src` is what there is to read in `inp` once `out` has been emptied. -/
def Source (fs : FS) (inp out : Str) (src : Bytes) : Prop :=
  fs.canRead (fs.node inp) = true ∧ fs.canWrite (fs.node out) = true ∧
  ∃ b, fs.content (fs.node inp) = some b ∧
    ((fs.node inp = fs.node out ∧ src = []) ∨ (fs.node inp ≠ fs.node out ∧ src = b))

/-- The program has the complaint `m` about its arguments or about a line of the source. -/
inductive Complains (bd : Build) (fs : FS) (args : List Str) : Str → Prop
  | noInput (o : Option Str) (rest : List Str) : Left args o rest → rest.length < 2 →
      Complains bd fs args (str% "error: input file is not specified\n")
  | tooMany (o : Option Str) (rest : List Str) : Left args o rest → 2 < rest.length →
      Complains bd fs args (str% "error: invalid command format\n")
  | line (inp out : Str) (src : Bytes) (m : Str) : Asks args inp out → Source fs inp out src →
      Stops bd src (.exit 1 m) → Complains bd fs args m

/-- The arguments and the files are in order, and the source is the program `ls`. -/
def Assembles (bd : Build) (fs : FS) (args : List Str) (out : Str) (src : Bytes) (ls : List Line) : Prop :=
  ∃ inp, Asks args inp out ∧ Source fs inp out src ∧ Program bd src ls ∧ NoBssContent ls ∧ Within bd ls

end AT.AsmSpec
