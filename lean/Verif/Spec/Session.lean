import Verif.Spec.Join
/-!
# Calls on an assembler

Somebody who uses the assembler as a library makes calls on one `Assembler`: selecting a section and
reading sources, in any order. `sourceOf` is one source text meant to say the same.
-/

namespace AT.AsmSpec
open AT.Asm

/-- A call on an assembler: `set_cur_sect(x)`, or `read_from` of a source that comes in `chunks`. -/
inductive Call where
  | select (x : Section)
  | read (chunks : List Bytes)
  deriving DecidableEq

/-- The source text that says the same as a call: a section line, or the source itself. -/
def textOf : Call → Bytes
  | .select x => utf8 (str% "section " ++ sectName x ++ str% "\n")
  | .read chunks => chunks.flatten

/-- The source text that says the same as the calls. -/
def sourceOf (calls : List Call) : Bytes := (calls.map textOf).flatten

/-- The number of calls that select a section. -/
def selections (calls : List Call) : Nat :=
  (calls.filter fun | .select _ => true | .read _ => false).length

/-- Every source arrives in chunks that are not empty, and ends at the end of a line if there are calls
after it. -/
structure WholeLines (calls : List Call) : Prop where
  chunks : ∀ cs, Call.read cs ∈ calls → ∀ c ∈ cs, c ≠ []
  ends : ∀ cs, Call.read cs ∈ calls.dropLast → cs.flatten = [] ∨ cs.flatten.getLast? = some 10

/-- The calls on an assembler, one after the other; a call that stops the program is the last one. -/
inductive Makes (bd : Build) : Assembler → List Call → Res Assembler → Prop
  | done (a : Assembler) : Makes bd a [] (.ok a)
  | select (a : Assembler) (x : Section) (calls : List Call) (r : Res Assembler) :
      Makes bd (a.setCurSect x) calls r → Makes bd a (.select x :: calls) r
  | read (a a' : Assembler) (cs : List Bytes) (calls : List Call) (r : Res Assembler) :
      a.readFrom bd cs = .ok a' → Makes bd a' calls r → Makes bd a (.read cs :: calls) r
  | stop (a : Assembler) (cs : List Bytes) (calls : List Call) (e : Stop) :
      a.readFrom bd cs = .error e → Makes bd a (.read cs :: calls) (.error e)

end AT.AsmSpec
